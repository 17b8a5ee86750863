import Verif.Lemmas.MintSingles
import Verif.Props.Demo
/-!
# C108: minting several tokens is minting each of them
-/
namespace Verif.Spec

variable {H : Type}

/-- **C108.** On a collection that can occur, within the batch limit: a mint of
several tokens is accepted with the first id `first` and leads to `s'` exactly if
the same tokens minted one by one, by the same caller at the same time, are all
accepted, with the ids `first`, `first + 1` and so on, and lead to `s'`. The two
states are equal in everything: tokens, balances, metadata, the log, what the
ledger has been told. -/
theorem C108_singles {E : Env H} {s : State H} (hr : Reachable E s) (c : Principal) (now : Nat)
    (reqs : List MintReq) (hne : reqs ≠ []) (hb : reqs.length ≤ BatchLimit s) (s' : State H) (first : Nat) :
    step E s (.call c now (.mint reqs)) = (s', .mgmt (.ok (.id first))) ↔
      run E s (reqs.map fun r => .call c now (.mint [r])) = s' ∧
      replies E s (reqs.map fun r => .call c now (.mint [r]))
        = (List.range reqs.length).map fun k => .mgmt (.ok (.id (first + k))) := by
  constructor
  · intro h
    obtain ⟨hv, h1, h2⟩ := mint_singles reqs h
    cases hv
    exact ⟨h1, h2⟩
  · rintro ⟨h1, h2⟩
    rw [← h1]
    exact singles_mint reqs hr hne hb h2

/-- **C108**, splitting: a mint of two lists of tokens together that is accepted is the
mint of the one followed by the mint of the other. -/
theorem C108_split {E : Env H} {s s' : State H} (hr : Reachable E s) {c : Principal} {now first : Nat}
    {reqs reqs' : List MintReq} (hne : reqs ≠ []) (hne' : reqs' ≠ [])
    (h : step E s (.call c now (.mint (reqs ++ reqs'))) = (s', .mgmt (.ok (.id first)))) :
    ∃ s₁, step E s (.call c now (.mint reqs)) = (s₁, .mgmt (.ok (.id first))) ∧
      step E s₁ (.call c now (.mint reqs')) = (s', .mgmt (.ok (.id (first + reqs.length)))) := by
  have hb : reqs.length + reqs'.length ≤ BatchLimit s := by
    have := ((mint_ok_iff E s s' c now _ _).1 h).2.2.1
    simpa [BatchLimit] using this
  obtain ⟨hv, h1, h2⟩ := mint_singles _ h
  cases hv
  rw [List.map_append, run_append] at h1
  rw [List.map_append, replies_append, List.length_append, List.range_add, List.map_append] at h2
  obtain ⟨h3, h4⟩ := List.append_inj h2 (by simp [replies_length])
  have e := singles_mint reqs hr hne (by omega) h3
  refine ⟨_, e, ?_⟩
  have hcfg : (run E s (reqs.map fun r => .call c now (.mint [r]))).cfg = s.cfg := by
    obtain ⟨_, _, _, _, _, _, _, _, _, _, h⟩ := (mint_ok_iff E s _ c now _ _).1 e
    rw [h]
    rfl
  rw [← h1]
  refine singles_mint reqs' (hr.run _) hne' (by simp only [BatchLimit, hcfg] at hb ⊢; omega) ?_
  rw [h4, List.map_map]
  exact List.map_congr_left fun k _ => by simp only [Function.comp_apply, Nat.add_assoc]

-- three tokens are minted together; one by one they get the ids 1, 2, 3
example : step Demo.env Demo.s0 Demo.mintMsg = (Demo.s1, .mgmt (.ok (.id 1))) := rfl
example : replies Demo.env Demo.s0 ([{ owner := Demo.alice, metadata := [("k", .nat 1)] }, { owner := Demo.alice },
      { owner := Demo.bob }].map fun r => .call Demo.admin (Demo.ms 100) (.mint [r]))
    = [.mgmt (.ok (.id 1)), .mgmt (.ok (.id 2)), .mgmt (.ok (.id 3))] := rfl
example : Reachable Demo.env Demo.s0 := Demo.reach []

end Verif.Spec
