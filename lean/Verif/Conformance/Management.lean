import Verif.Conformance.Setup
/-!
# core_suite/tests/test_management.rs on the model

Each theorem cites the test it runs; see `Setup` for what these files are for. The
storage canisters are external: their answers are those the tests observe.
-/
namespace Verif.Conformance

set_option maxRecDepth 20000

/-- The storage canister that is created first, then used as long as it has room. -/
def storage : SubCanister := { id := [6], installed := true }

/-- Answers of the storage: a new canister if there is none, room for the file,
and success of every call. -/
def good : Answer :=
  { sizeOf := fun _ => some 1000, initOk := fun _ => true, created := some storage, newInitOk := true }

def bad : Answer := { resp := .error .other }

/-- One call and the answer it waits for. -/
def call (n : Nat) (who : Principal) (c : Call) (ans : Answer := good) : List Msg :=
  [.call who (at_ n) c, .resume (at_ (n + 1)) 0 ans]

/-- utils.rs 62-134 `upload_file`, for a file of `chunks` chunks of a megabyte. -/
def uploadFile (n : Nat) (path : String) (chunks : Nat := 2) : List Msg :=
  call n controller (.initUpload path (chunks * 1048576)) ++
  (List.range chunks).flatMap (fun i => call (n + 100 * (i + 1)) controller (.storeChunk path)) ++
  call (n + 100 * (chunks + 1)) controller (.finalizeUpload path)

/-- Which calls succeeded. The answer to a call that waits is the answer to the message
that resumes it; resuming a call that did not wait is no answer. -/
def answers (s : State Nat) (ms : List Msg) : List Bool :=
  ((play s ms).2.filter fun r => match r with | .suspended | .none => false | _ => true).map ok

/-- 39 test_storage_simple: a file that was uploaded is served by a redirection. -/
theorem test_storage_simple :
    answers start (uploadFile 0 "/test.png") = [true, true, true, true] ∧
    httpRequest (after start (uploadFile 0 "/test.png")) "/test.png"
      = .redirect "https://aaaaa-aa.raw.icp0.io/test.png" := by decide

/-- 222 test_duplicate_upload: a second upload to the path is refused. -/
theorem test_duplicate_upload :
    (step env (after start (uploadFile 0 "/test.png")) (.call controller (at_ 1000) (.initUpload "/test.png" 1024))).2
      = .mgmt (.error .fileAlreadyExists) := by rfl

/-- 273 test_duplicate_chunk_upload: when the storage refuses a chunk, so does the
collection, and the upload can still be finalized. -/
theorem test_duplicate_chunk_upload :
    answers start (call 0 controller (.initUpload "/test.png" 10) ++ call 100 controller (.storeChunk "/test.png") ++
      call 200 controller (.storeChunk "/test.png") bad ++ call 300 controller (.finalizeUpload "/test.png"))
      = [true, true, false, true] := by decide

/-- 377 test_finalize_upload_missing_chunk: the storage refuses to finalize. -/
theorem test_finalize_upload_missing_chunk :
    answers start (call 0 controller (.initUpload "/test.png" 10) ++ call 100 controller (.storeChunk "/test.png") ++
      call 200 controller (.finalizeUpload "/test.png") bad) = [true, true, false] := by decide

/-- 461 test_cancel_upload: a started upload can be cancelled; one that was never
started cannot be finalized. -/
theorem test_cancel_upload :
    answers start (call 0 controller (.initUpload "/test_cancel.png" 10) ++
      call 100 controller (.cancelUpload "/test_cancel.png") ++ [.call controller (at_ 200) (.finalizeUpload "/test.png")])
      = [true, true, false] := by decide

/-- The storage canister refuses, so a second one is created. -/
def full : Answer := { good with initOk := fun _ => false, created := some { id := [16], installed := true } }

/-- 551 test_management_file_distribution, in small: when a canister takes no more
files, the next one is used. -/
theorem test_management_file_distribution :
    ((after start (uploadFile 0 "/a.png" 1 ++ uploadFile 1000 "/b.png" 1 ++
      call 2000 controller (.initUpload "/c.png" 1048576) full)).uploads.entries.map fun e => (e.1, e.2.canister))
      = [("/c.png", [16]), ("/b.png", [6]), ("/a.png", [6])] ∨
    ((after start (uploadFile 0 "/a.png" 1 ++ uploadFile 1000 "/b.png" 1 ++
      call 2000 controller (.initUpload "/c.png" 1048576) full)).uploads.entries.map fun e => (e.1, e.2.canister))
      = [("/a.png", [6]), ("/b.png", [6]), ("/c.png", [16])] := by decide

/-- 646 test_management_upload_resilience: a file over 2 GiB is refused and the next
one is accepted. -/
theorem test_management_upload_resilience :
    answers start (uploadFile 0 "/a.png" 1 ++ call 1000 controller (.initUpload "/b.mp4" (3 * 1024 * 1024 * 1024)) ++
      uploadFile 2000 "/c.png" 1) = [true, true, true, false, true, true, true] := by decide

/-- 929-1106: a caller without the permission is refused by the guard. -/
theorem test_unauthorized :
    ([.updateNftMetadata 0 [], .initUpload "/test.png" 1024, .storeChunk "/test.png", .finalizeUpload "/test.png",
      .cancelUpload "/test.png", .mint [{ owner := owner1 }], .updateCollectionMetadata {}].map fun c =>
        refused (step env start (.call p1 (at_ 0) c)).2) = List.replicate 7 true := by decide

def grant (n : Nat) (p : Principal) (x : Permission) : Msg := .call controller (at_ n) (.grant p x)
def ungrant (n : Nat) (p : Principal) (x : Permission) : Msg := .call controller (at_ n) (.revoke p x)

/-- 1108 test_mint_authorized. -/
theorem test_mint_authorized :
    oks start [grant 0 p1 .minting, .call p1 (at_ 100) (.mint [{ owner := owner1 }])] = [true, true] := by decide

/-- 1189 test_add_then_remove_minting_authorities_unauthorized. -/
theorem test_add_then_remove_minting_authorities_unauthorized :
    oks start [grant 0 p1 .minting, ungrant 50 p1 .minting] = [true, true] ∧
    refused (step env (after start [grant 0 p1 .minting, ungrant 50 p1 .minting])
      (.call p1 (at_ 100) (.mint [{ owner := owner1 }]))).2 = true := by decide

/-- 1374 test_get_upload_status: unknown, initialised, finalized. -/
theorem test_get_upload_status :
    getUploadStatus start controller "/test_status.png" = some none ∧
    getUploadStatus (after start (call 0 controller (.initUpload "/test_status2.png" 1024))) controller "/test_status2.png"
      = some (some .init) ∧
    getUploadStatus (after start (call 0 controller (.initUpload "/test_status2.png" 1024) ++
      uploadFile 100 "/test_status.png")) controller "/test_status.png" = some (some .finalized) := by decide

def threeUploads : State Nat :=
  after start (uploadFile 0 "/0.png" 1 ++ uploadFile 1000 "/1.png" 1 ++ uploadFile 2000 "/2.png" 1)

/-- 1448 test_get_all_uploads: three uploads, pages of two and one. -/
theorem test_get_all_uploads :
    (getAllUploads threeUploads controller id none none).map List.length = some 3 ∧
    (getAllUploads threeUploads controller id (some 0) (some 2)).map List.length = some 2 ∧
    (getAllUploads threeUploads controller id (some 2) (some 2)).map List.length = some 1 := by decide

/-- 1515 test_update_collection_metadata. -/
theorem test_update_collection_metadata :
    oks start [.call controller (at_ 0) (.updateCollectionMetadata
      { description := some "Test Description", symbol := some "TEST", name := some "Test Collection",
        logo := some "https://google.com/test.png", supplyCap := some 1000, maxQueryBatch := some 100,
        maxUpdateBatch := some 50, maxTake := some 200, defaultTake := some 20, maxMemo := some 32,
        atomicBatch := some true, txWindow := some 3600, permittedDrift := some 60,
        maxStorageThreshold := some 1000000 })] = [true] := by decide

/-- 1599 test_permissions_add_and_remove_one_by_one: each permission lets its holder
make the call it is for. -/
theorem test_permissions_add_and_remove_one_by_one :
    answers start ([grant 0 p1 .minting, .call p1 (at_ 1000) (.mint [{ owner := owner1 }]), ungrant 2000 p1 .minting,
      grant 3000 p1 .updateMetadata, .call p1 (at_ 4000) (.updateNftMetadata 1 [("name", .text "x")]),
      ungrant 5000 p1 .updateMetadata, grant 6000 p1 .updateUploads] ++
      call 7000 p1 (.initUpload "/test_permissions.png" 1024) ++
      [ungrant 8000 p1 .updateUploads, grant 9000 p1 .updateCollectionMetadata,
       .call p1 (at_ 10000) (.updateCollectionMetadata { description := some "Authorized collection update" }),
       ungrant 11000 p1 .updateCollectionMetadata, grant 12000 p1 .manageAuthorities,
       .call p1 (at_ 13000) (.grant p2 .minting), ungrant 14000 p1 .manageAuthorities])
      = List.replicate 15 true ∧
    getUploadStatus (after start (call 0 controller (.initUpload "/test_permissions.png" 1024) ++
      [grant 100 p1 .readUploads])) p1 "/test_permissions.png" = some (some .init) := by decide

end Verif.Conformance
