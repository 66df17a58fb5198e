import Mathlib.Data.Finset.Max
import Verif.Lemmas.Threads
/-!
Property C32: clone and free by several threads.

`Runs s`: threads that keep the rules (`Step`) can bring about the state `s`, with any
interleaving of their steps. `T` is any finite set of threads.
-/
namespace Tg
open Thr
variable {T : Type} [DecidableEq T] [Fintype T] {s : State T}

/-- No released object is accessed, none is released twice, and when one is released every access
to it happens before, in the sense of the C memory model. -/
theorem C32_no_fault (h : Runs s) : ¬ s.fault := by
  obtain ⟨K, hi⟩ := runs_inv h
  exact hi.ok

/-- What a thread reaches from a reference it owns is not released. -/
theorem C32_alive (h : Runs s) {v : T} {o : Nat} (hr : Reach s (s.thr v).own o) :
    o < s.next ∧ (s.objs o).frees = 0 := by
  obtain ⟨K, hi⟩ := runs_inv h
  exact hi.inK o (hi.reach hr).1.1

/-- No object is released more than once. -/
theorem C32_once (h : Runs s) (o : Nat) : (s.objs o).frees ≤ 1 := by
  obtain ⟨K, hi⟩ := runs_inv h
  exact hi.once o

/-- When the threads own nothing and have nothing left to do, every object is released once. -/
theorem C32_all_released (h : Runs s) (hown : ∀ v, (s.thr v).own = 0)
    (htodo : ∀ v, (s.thr v).todo = []) {o : Nat} (ho : o < s.next) : (s.objs o).frees = 1 := by
  obtain ⟨K, hi⟩ := runs_inv h
  have hK : K = ∅ := by
    by_contra hne
    obtain ⟨p, hp⟩ := Finset.nonempty_iff_ne_empty.2 hne
    have hm := Finset.max'_mem K ⟨p, hp⟩
    set m := K.max' ⟨p, hp⟩ with hmdef
    have h0 : (s.objs m).rc = 0 := by
      rw [hi.count m hm]
      have : m ∉ refs s K := by
        rw [mem_refs]
        rintro (⟨v, hv⟩ | ⟨q, hq, hk⟩)
        · simp [Thread.held, hown, htodo, subs] at hv
        · have h1 := hi.order q hq m hk
          have h2 := K.le_max' q hq
          omega
      rw [Multiset.count_eq_zero.2 this]; rfl
    obtain ⟨v, hv⟩ := hi.zero m hm h0
    rw [htodo] at hv; simp at hv
  have h1 := hi.once o
  by_contra h2
  have h3 : (s.objs o).frees = 0 := by omega
  obtain ⟨v, hv⟩ := hi.gone o ho (by rw [hK]; simp) h3
  rw [htodo] at hv; simp at hv

/-- Nobody has a reference: no thread owns one or is about to drop one, no object that has not
dropped its references has one. -/
def Thr.Unreferenced (s : State T) (o : Nat) : Prop :=
  (∀ w, o ∉ (s.thr w).own ∧ .sub o ∉ (s.thr w).todo) ∧
  ∀ p, p < s.next → (s.objs p).frees = 0 → (∀ w, .release p ∉ (s.thr w).todo) →
    o ∉ (s.objs p).kids

theorem Thr.unreferenced_iff {K : Finset Nat} (hi : Inv s K) (o : Nat) :
    Unreferenced s o ↔ o ∉ refs s K := by
  rw [mem_refs, not_or]
  constructor
  · rintro ⟨h1, h2⟩
    refine ⟨?_, ?_⟩
    · rintro ⟨w, hw⟩
      rcases Multiset.mem_add.1 hw with hw | hw
      · exact (h1 w).1 hw
      · exact (h1 w).2 (mem_subs.1 hw)
    · rintro ⟨p, hp, hk⟩
      obtain ⟨a, b, c⟩ := (hi.mem_iff p).1 hp
      exact h2 p a b c hk
  · rintro ⟨h1, h2⟩
    refine ⟨fun w => ⟨fun h => h1 ⟨w, Multiset.mem_add.2 (Or.inl h)⟩,
      fun h => h1 ⟨w, Multiset.mem_add.2 (Or.inr (mem_subs.2 h))⟩⟩, fun p a b c hk => ?_⟩
    exact h2 ⟨p, (hi.mem_iff p).2 ⟨a, b, c⟩, hk⟩

/-- A thread that drops a reference goes on to release the object exactly when that was the last
reference. -/
theorem C32_last (h : Runs s) {v : T} {o : Nat} {rest : List Act}
    (ht : (s.thr v).todo = .sub o :: rest) :
    .read o ∈ ((s.act v rest (.sub o)).thr v).todo ↔ Unreferenced (s.act v rest (.sub o)) o := by
  obtain ⟨K, hi⟩ := runs_inv h
  have hi' := sub_ok hi ht
  have ho : o ∈ K := (hi.held (v := v) (by simp [Thread.held, ht, subs])).1
  rw [unreferenced_iff hi']
  constructor
  · intro hr hm
    have h1 := (hi'.reads v o hr).2
    rw [hi'.count o ho] at h1
    have := Multiset.count_pos.2 hm
    omega
  · intro hm
    have h1 := hi'.count o ho
    rw [Multiset.count_eq_zero.2 hm] at h1
    have h2 : (s.objs o).rc - 1 = 0 := by
      simpa [State.act, State.access, Obj.touch] using h1
    have h3 : (s.objs o).rc = 1 := by omega
    simp [State.act, State.access, after, h3]

/-- Only one thread is about to release an object, and nobody has a reference to it. -/
theorem C32_release_alone (h : Runs s) {v : T} {o : Nat}
    (hr : .read o ∈ (s.thr v).todo ∨ .release o ∈ (s.thr v).todo) :
    Unreferenced s o ∧
    ∀ w, .read o ∈ (s.thr w).todo ∨ .release o ∈ (s.thr w).todo → w = v := by
  obtain ⟨K, hi⟩ := runs_inv h
  refine ⟨?_, fun w hw => claim_one hi (mem_claims.2 hw) (mem_claims.2 hr)⟩
  rw [unreferenced_iff hi]
  intro hm
  have hK := hi.refK o hm
  rcases hr with hr | hr
  · have h1 := (hi.reads v o hr).2
    rw [hi.count o hK] at h1
    have := Multiset.count_pos.2 hm
    omega
  · exact (hi.rel v o hr).1 hK

/-- Steps of frees that are in progress, `n` of them. -/
inductive Thr.Frees : Nat → State T → State T → Prop where
  | zero {s : State T} : Frees 0 s s
  | step {n : Nat} {s s' : State T} {v : T} {a : Act} {rest : List Act} :
      (s.thr v).todo = a :: rest → Frees n (s.act v rest a) s' → Frees (n + 1) s s'

/-- The frees in progress end: there is a bound on the steps that are left, whatever the schedule. -/
theorem C32_finishes (h : Runs s) : ∃ N, ∀ n s', Frees n s s' → n ≤ N := by
  obtain ⟨K, hi⟩ := runs_inv h
  refine ⟨work s K, fun n s' hf => ?_⟩
  clear h
  induction hf generalizing K with
  | zero => exact Nat.zero_le _
  | step ht _ ih =>
    obtain ⟨K', hi', hlt⟩ := act_ok hi ht
    have := ih K' hi'
    omega

/-- Two threads with a polygon that shares a ring; they free it at the same time. -/
example : ∃ s : State Bool, Runs s ∧ s.next = 2 ∧ (s.objs 0).frees = 1 ∧ (s.objs 1).frees = 1 ∧
    ∀ v, (s.thr v).own = 0 ∧ (s.thr v).todo = [] := by
  have r0 : Runs (State.init : State Bool) := .init
  have r1 := r0.step (.make (v := false) (ks := []) rfl (Multiset.zero_le _))
  have r2 := r1.step (.make (v := false) (ks := [0]) rfl (by decide))
  have r3 := r2.step (.clone (v := false) (o := 1) rfl (.root (by decide)))
  have r4 := r3.step (.give (v := false) (w := true) (o := 1) rfl (by decide))
  have r5 := r4.step (.free (v := false) (o := 1) rfl (by decide))
  have r6 := r5.step (.free (v := true) (o := 1) rfl (by decide))
  have r7 := r6.step (.act (v := false) (a := .sub 1) (rest := []) rfl)
  have r8 := r7.step (.act (v := true) (a := .sub 1) (rest := []) rfl)
  have r9 := r8.step (.act (v := true) (a := .fence) (rest := [.read 1]) rfl)
  have r10 := r9.step (.act (v := true) (a := .read 1) (rest := []) rfl)
  have r11 := r10.step (.act (v := true) (a := .sub 0) (rest := [.release 1]) rfl)
  have r12 := r11.step (.act (v := true) (a := .fence) (rest := [.read 0, .release 1]) rfl)
  have r13 := r12.step (.act (v := true) (a := .read 0) (rest := [.release 1]) rfl)
  have r14 := r13.step (.act (v := true) (a := .release 0) (rest := [.release 1]) rfl)
  have r15 := r14.step (.act (v := true) (a := .release 1) (rest := []) rfl)
  refine ⟨_, r15, rfl, rfl, rfl, fun v => ?_⟩
  cases v
  · exact ⟨rfl, rfl⟩
  · exact ⟨rfl, rfl⟩

end Tg
