import Verif.Lemmas.Files
import Verif.Props.Uploads
/-!
# Uploads of other files
-/
namespace Verif

open Spec Files

variable {H : Type}

/-! ## C121: uploads of other files make no difference to a file -/

/-- **C121.** Take any sequence of calls and upgrades, each brought to its end before the next one,
in which the upload of a file is not begun anew, and leave out all upload calls about other files.
Everything else is answered the same, the entry of the file is the same afterwards, and so is the
rest of the collection but for the other files. The file is also served the same, unless one of
the other files is served under the same path. -/
theorem C121_files (E : Env H) {s : State H} (hr : Reachable E s) (h0 : s.pending = []) (path : String) (l : List Deed)
    (hn : ∀ caller now size e, .call caller now (.initUpload path size) e ∉ l) :
    deedReplies E s (l.filter fun d => !aboutOther path d) = (deedReplies E s l).filter (fun x => !aboutOther path x.1) ∧
    SameButOtherFiles path (afterDeeds E s l) (afterDeeds E s (l.filter fun d => !aboutOther path d)) ∧
    ((∀ caller now c e other, .call caller now c e ∈ l → fileOf c = some other → other ≠ path →
        servedPath other ≠ servedPath path) →
      httpRequest (afterDeeds E s (l.filter fun d => !aboutOther path d)) (servedPath path) =
        httpRequest (afterDeeds E s l) (servedPath path)) := by
  obtain ⟨h1, h2, h3⟩ := deeds (E := E) (path := path) l (fun d hd c now n e h => hn c now n e (h ▸ hd)) hr hr h0 (Like.refl path s)
  refine ⟨h1, ⟨h2.file, ?_⟩, fun hm => ?_⟩
  · obtain ⟨q, hq⟩ := h2.rest
    rw [hq]
    rfl
  · have h := h3 (fun d hd c now call e p h hf hp => hm c now call e p (h ▸ hd) hf hp) rfl
    unfold httpRequest
    rw [show (afterDeeds E s (l.filter fun d => !aboutOther path d)).router.get (servedPath path) =
      (afterDeeds E s l).router.get (servedPath path) from h]

/-- **C121.** Nor do they decide whether the upload of the file can be begun: it is turned down, or
passed on to the storage canisters, just as without them. -/
theorem C121_begin (E : Env H) {s : State H} (hr : Reachable E s) (h0 : s.pending = []) (path : String) (l : List Deed)
    (hn : ∀ caller now size e, .call caller now (.initUpload path size) e ∉ l) (caller : Principal) (now size : Nat) :
    (step E (afterDeeds E s (l.filter fun d => !aboutOther path d)) (.call caller now (.initUpload path size))).2 =
      (step E (afterDeeds E s l) (.call caller now (.initUpload path size))).2 := by
  obtain ⟨_, h2, _⟩ := deeds (E := E) (path := path) l (fun d hd c now n e h => hn c now n e (h ▸ hd)) hr hr h0 (Like.refl path s)
  exact init_alike (hr.run _) (hr.run _) h2 caller now size

namespace Demo

/-- A day on which a second file is uploaded while the first one is finished, a token changes hands
and the canister is upgraded. -/
def twoFiles : List Deed :=
  [.call admin (ms 210) (.initUpload "/b.png" 20) (.answered (ms 211) { sizeOf := fun _ => some 0, initOk := fun _ => true }),
   .call admin (ms 212) (.storeChunk "/a.png") (.answered (ms 213) {}),
   .call admin (ms 214) (.storeChunk "/b.png") .trapped,
   .call [1] (ms 215) (.transfer [{ to_ := Demo.bob, tid := 1 }]) .trapped,
   .upgrade,
   .call admin (ms 216) (.storeChunk "/b.png") (.answered (ms 217) {}),
   .call admin (ms 218) (.finalizeUpload "/b.png") (.answered (ms 219) {}),
   .call admin (ms 220) (.finalizeUpload "/a.png") (.answered (ms 221) {})]

end Demo

example : uploadState (afterDeeds Demo.env Demo.sPart Demo.twoFiles) "/b.png" = some .finalized ∧
    uploadState (afterDeeds Demo.env Demo.sPart (Demo.twoFiles.filter fun d => !aboutOther "/a.png" d)) "/b.png" = none ∧
    uploadState (afterDeeds Demo.env Demo.sPart (Demo.twoFiles.filter fun d => !aboutOther "/a.png" d)) "/a.png" = some .finalized := by
  decide

example : httpRequest (afterDeeds Demo.env Demo.sPart (Demo.twoFiles.filter fun d => !aboutOther "/a.png" d)) (servedPath "/a.png") =
    httpRequest (afterDeeds Demo.env Demo.sPart Demo.twoFiles) (servedPath "/a.png") := by
  refine (C121_files Demo.env Demo.sPart_reach (by decide) "/a.png" Demo.twoFiles ?_).2.2 ?_
  · intro c now n e h
    simp [Demo.twoFiles] at h
  · intro c now call e other h hf hne
    simp only [Demo.twoFiles, List.mem_cons, List.not_mem_nil, or_false, Deed.call.injEq, reduceCtorEq, false_or] at h
    rcases h with ⟨_, _, rfl, _⟩ | ⟨_, _, rfl, _⟩ | ⟨_, _, rfl, _⟩ | ⟨_, _, rfl, _⟩ | ⟨_, _, rfl, _⟩ | ⟨_, _, rfl, _⟩ | ⟨_, _, rfl, _⟩ <;>
      cases hf <;> first | exact absurd rfl hne | decide

/-- What becomes of a begun upload may well depend on the others: here it finds room only in the
storage canister made for another file. -/
example : (uploadState (afterDeeds Demo.env Demo.s1
      [.call Demo.admin (Demo.ms 200) (.initUpload "/a.png" 10)
         (.answered (Demo.ms 201) { created := some { id := [5], installed := true }, newInitOk := true }),
       .call Demo.admin (Demo.ms 202) (.initUpload "/b.png" 10)
         (.answered (Demo.ms 203) { sizeOf := fun _ => some 0, initOk := fun _ => true })]) "/b.png" = some .init) ∧
    (uploadState (afterDeeds Demo.env Demo.s1
      [.call Demo.admin (Demo.ms 202) (.initUpload "/b.png" 10)
         (.answered (Demo.ms 203) { sizeOf := fun _ => some 0, initOk := fun _ => true })]) "/b.png" = none) := by
  decide

end Verif
