import Verif.Model.Line
import Verif.Lemmas.Exact
import Verif.Lemmas.SeriesApi
/-! Lemmas about lines. -/
set_option linter.unusedSectionVars false
namespace Tg.S

section
variable {γ : Type*}

/-- A visit that stops at the first hit. -/
theorem visit_any (P : γ → Bool) : ∀ (l : List γ) , visit (fun x (b : Bool) => if P x then (true, false) else (b, true)) l false = l.any P
  | [] => rfl
  | x :: l => by
    rw [visit]
    cases hx : P x
    · simp [hx, visit_any P l]
    · simp [hx]

end

section
variable {α β : Type*} [LinearOrder α] [LinearOrder β]

theorem firstCovering_spec {A : Arith α} {a : Ring α β} {b0 : Seg α} : ∀ {ks : List Nat} {j : Nat},
    firstCovering A a b0 ks = some (some j) → j ∈ ks ∧ ∃ s, segAt a.points j = some s ∧ segCoversSeg A s b0 = true
  | k :: ks, j, h => by
    rw [firstCovering] at h
    cases hs : segAt a.points k with
    | none => rw [hs] at h; cases h
    | some s =>
      rw [hs] at h
      dsimp only at h
      split_ifs at h with hc
      · cases h
        exact ⟨by simp, s, hs, hc⟩
      · obtain ⟨h1, h2⟩ := firstCovering_spec h
        exact ⟨by simp [h1], h2⟩

theorem firstCovering_some {A : Arith α} {a : Ring α β} {b0 : Seg α} : ∀ {ks : List Nat},
    (∀ k ∈ ks, ∃ s, segAt a.points k = some s) → ∃ r, firstCovering A a b0 ks = some r
  | [], _ => ⟨_, rfl⟩
  | k :: ks, h => by
    obtain ⟨s, hs⟩ := h k (by simp)
    rw [firstCovering, hs]
    dsimp only
    split_ifs
    · exact ⟨_, rfl⟩
    · exact firstCovering_some fun k hk => h k (by simp [hk])

theorem firstCovering_none {A : Arith α} {a : Ring α β} {b0 : Seg α} : ∀ {ks : List Nat},
    firstCovering A a b0 ks = some none → ∀ k ∈ ks, ∀ s, segAt a.points k = some s → segCoversSeg A s b0 = false
  | k :: ks, h, k', hk', s', hs' => by
    rw [firstCovering] at h
    cases hs : segAt a.points k with
    | none => rw [hs] at h; cases h
    | some s =>
      rw [hs] at h
      dsimp only at h
      split_ifs at h with hc
      · simp at h
      · rcases List.mem_cons.1 hk' with rfl | hk'
        · rw [hs] at hs'
          cases hs'
          simpa using hc
        · exact firstCovering_none h k' hk' s' hs'

end

variable {K : Type*} [Field K] [LinearOrder K] [IsStrictOrderedRing K] [FloorRing K] {ε : K} {ns : List (Pt K) → Nat}

theorem segCoversPt_iff (s : Seg K) (p : Pt K) : segCoversPt (exact ε ns) s p = true ↔ OnSeg s p := exactOnSeg_iff ε p s

theorem segCoversSeg_iff (a b : Seg K) : segCoversSeg (exact ε ns) a b = true ↔ ∀ p, OnSeg b p → OnSeg a p := by
  rw [segCoversSeg, Bool.and_eq_true, segCoversPt_iff, segCoversPt_iff]
  exact ⟨fun h p hp => onSeg_mono h.1 h.2 hp, fun h => ⟨h _ (onSeg_left b), h _ (onSeg_right b)⟩⟩

end Tg.S
