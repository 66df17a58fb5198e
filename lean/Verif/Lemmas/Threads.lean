import Mathlib.Tactic.Abel
import Mathlib.Algebra.Order.BigOperators.Group.Multiset
import Mathlib.Algebra.BigOperators.Group.Multiset.Basic
import Mathlib.Data.Multiset.UnionInter
import Mathlib.Data.Fintype.BigOperators
import Mathlib.Algebra.BigOperators.Group.Finset.Piecewise
import Mathlib.Data.Multiset.Count
import Verif.Model.Threads
/-! The invariant of `Model/Threads`: the counters count, and every access happens before an owner of the object. -/
set_option linter.unusedSectionVars false
set_option linter.dupNamespace false
namespace Tg.Thr
variable {T : Type} [DecidableEq T] [Fintype T]

/-- Objects of the pending `sub`s. -/
def subs : List Act → Multiset Nat
  | [] => 0
  | .sub o :: l => o ::ₘ subs l
  | _ :: l => subs l

/-- Objects that a pending `read` or `release` is about. -/
def claims : List Act → Multiset Nat
  | [] => 0
  | .read o :: l => o ::ₘ claims l
  | .release o :: l => o ::ₘ claims l
  | _ :: l => claims l

theorem subs_append (l m : List Act) : subs (l ++ m) = subs l + subs m := by
  induction l with
  | nil => simp [subs]
  | cons a l ih => cases a <;> simp [subs, ih]

theorem claims_append (l m : List Act) : claims (l ++ m) = claims l + claims m := by
  induction l with
  | nil => simp [claims]
  | cons a l ih => cases a <;> simp [claims, ih]

theorem subs_map (l : List Nat) : subs (l.map .sub) = ↑l := by
  induction l with
  | nil => rfl
  | cons a l ih => simp [subs, ih]

theorem claims_map (l : List Nat) : claims (l.map .sub) = 0 := by
  induction l with
  | nil => rfl
  | cons a l ih => simp [claims, ih]

theorem mem_claims {x : Nat} {l : List Act} : x ∈ claims l ↔ .read x ∈ l ∨ .release x ∈ l := by
  induction l with
  | nil => simp [claims]
  | cons a l ih => cases a <;> simp [claims, ih] <;> tauto

theorem mem_subs {x : Nat} {l : List Act} : x ∈ subs l ↔ .sub x ∈ l := by
  induction l with
  | nil => simp [subs]
  | cons a l ih => cases a <;> simp [subs, ih]

/-- The references that a thread has. -/
def Thread.held (t : Thread T) : Multiset Nat := t.own + subs t.todo

/-- A sum over the threads after a change of one. -/
theorem sum_update {M : Type*} [AddCommMonoid M] (f : Thread T → M) (g : T → Thread T) (v : T)
    (t : Thread T) : ∑ w, f (Function.update g v t w) + f (g v) = ∑ w, f (g w) + f t := by
  rw [← Finset.add_sum_erase _ _ (Finset.mem_univ v),
    ← Finset.add_sum_erase Finset.univ (fun w => f (g w)) (Finset.mem_univ v)]
  have : ∑ w ∈ Finset.univ.erase v, f (Function.update g v t w)
      = ∑ w ∈ Finset.univ.erase v, f (g w) :=
    Finset.sum_congr rfl (fun w hw => by rw [Function.update_of_ne (Finset.ne_of_mem_erase hw)])
  rw [this]
  simp only [Function.update_self]
  abel

/-- All references: of threads, and of the objects in `K`. -/
def refs (s : State T) (K : Finset Nat) : Multiset Nat :=
  ∑ v, (s.thr v).held + ∑ p ∈ K, (↑(s.objs p).kids : Multiset Nat)

/-- All claims. -/
def allClaims (s : State T) : Multiset Nat := ∑ v, claims (s.thr v).todo

theorem mem_sum_thr {f : Thread T → Multiset Nat} {s : State T} {x : Nat} :
    x ∈ ∑ v, f (s.thr v) ↔ ∃ v, x ∈ f (s.thr v) := by
  rw [Multiset.mem_sum]; simp

theorem mem_refs {s : State T} {K : Finset Nat} {x : Nat} :
    x ∈ refs s K ↔ (∃ v, x ∈ (s.thr v).held) ∨ ∃ p ∈ K, x ∈ (s.objs p).kids := by
  rw [refs, Multiset.mem_add, mem_sum_thr, Multiset.mem_sum]; simp

/-- An action that is not in front of a free in progress. -/
def Act.plain : Act → Prop
  | .sub _ | .release _ => True
  | _ => False

/-- What a thread has to do is in the order of the code, and after the fence its view has what the
counter passed on. -/
def Shape (objs : Nat → Obj T) (t : Thread T) : Prop :=
  (∀ a ∈ t.todo, a.plain) ∨
  (∃ o l, t.todo = .fence :: .read o :: l ∧ (∀ a ∈ l, Act.plain a) ∧ (objs o).view ≤ t.view ⊔ t.acq) ∨
  (∃ o l, t.todo = .read o :: l ∧ (∀ a ∈ l, Act.plain a) ∧ (objs o).view ≤ t.view)

/-- The first `k` actions of thread `u` happen before whoever gets to release `o`. -/
inductive Cov (s : State T) (K : Finset Nat) (u : T) (k : Nat) : Nat → Prop where
  | loc {o : Nat} : k ≤ (s.objs o).view u → Cov s K u k o
  | held {o : Nat} (v : T) : o ∈ (s.thr v).held → k ≤ (s.thr v).view u → Cov s K u k o
  | par {o : Nat} (p : Nat) : p ∈ K → o ∈ (s.objs p).kids → Cov s K u k p → Cov s K u k o

structure Inv (s : State T) (K : Finset Nat) : Prop where
  ok : ¬ s.fault
  inK : ∀ p ∈ K, p < s.next ∧ (s.objs p).frees = 0
  order : ∀ p ∈ K, ∀ k ∈ (s.objs p).kids, k < p
  refK : ∀ o ∈ refs s K, o ∈ K
  count : ∀ o ∈ K, (s.objs o).rc = (refs s K).count o
  zero : ∀ o ∈ K, (s.objs o).rc = 0 → ∃ v, .read o ∈ (s.thr v).todo
  reads : ∀ v o, .read o ∈ (s.thr v).todo → o ∈ K ∧ (s.objs o).rc = 0
  rel : ∀ v o, .release o ∈ (s.thr v).todo → o ∉ K ∧ o < s.next ∧ (s.objs o).frees = 0 ∧
    ∀ u, (s.objs o).acc u ≤ (s.thr v).view u
  nodup : (allClaims s).Nodup
  gone : ∀ o, o < s.next → o ∉ K → (s.objs o).frees = 0 → ∃ v, .release o ∈ (s.thr v).todo
  once : ∀ o, (s.objs o).frees ≤ 1
  shape : ∀ v, Shape s.objs (s.thr v)
  cov : ∀ o ∈ K, ∀ u, Cov s K u ((s.objs o).acc u) o

theorem inv_init : Inv (State.init : State T) ∅ where
  ok := id
  inK := by simp
  order := by simp
  refK := by
    intro o ho
    rw [mem_refs] at ho
    simp [State.init, Thread.held, subs] at ho
  count := by simp
  zero := by simp
  reads := by simp [State.init]
  rel := by simp [State.init]
  nodup := by simp [allClaims, State.init, claims]
  gone := by simp [State.init]
  once := by simp [State.init]
  shape := fun v => Or.inl (by simp [State.init])
  cov := by simp

theorem Inv.held {s : State T} {K : Finset Nat} (hi : Inv s K) {v : T} {o : Nat}
    (h : o ∈ (s.thr v).held) : o ∈ K ∧ (s.objs o).rc ≠ 0 := by
  have hr : o ∈ refs s K := mem_refs.2 (Or.inl ⟨v, h⟩)
  refine ⟨hi.refK o hr, ?_⟩
  rw [hi.count o (hi.refK o hr)]
  have := Multiset.count_pos.2 hr
  omega

theorem Inv.kid {s : State T} {K : Finset Nat} (hi : Inv s K) {p o : Nat} (hp : p ∈ K)
    (h : o ∈ (s.objs p).kids) : o ∈ K ∧ (s.objs o).rc ≠ 0 := by
  have hr : o ∈ refs s K := mem_refs.2 (Or.inr ⟨p, hp, h⟩)
  refine ⟨hi.refK o hr, ?_⟩
  rw [hi.count o (hi.refK o hr)]
  have := Multiset.count_pos.2 hr
  omega

theorem Inv.reach {s : State T} {K : Finset Nat} (hi : Inv s K) {v : T} {o : Nat}
    (h : Reach s (s.thr v).own o) :
    (o ∈ K ∧ (s.objs o).rc ≠ 0) ∧ ∀ u k, k ≤ (s.thr v).view u → Cov s K u k o := by
  induction h with
  | root h =>
    have hh := Multiset.mem_add.2 (Or.inl (b := _ ∈ subs (s.thr v).todo) h)
    exact ⟨hi.held hh, fun u k hk => .held v hh hk⟩
  | step _ hm ih => exact ⟨hi.kid ih.1.1 hm, fun u k hk => .par _ ih.1.1 hm (ih.2 u k hk)⟩

/-- Coverage is kept when each ground for it is. -/
theorem Cov.map {s s' : State T} {K K' : Finset Nat} {u : T} {k : Nat}
    (hloc : ∀ o, k ≤ (s.objs o).view u → Cov s' K' u k o)
    (hheld : ∀ o v, o ∈ (s.thr v).held → k ≤ (s.thr v).view u → Cov s' K' u k o)
    (hpar : ∀ o p, p ∈ K → o ∈ (s.objs p).kids → Cov s K u k p → Cov s' K' u k p → Cov s' K' u k o)
    {o : Nat} (h : Cov s K u k o) : Cov s' K' u k o := by
  induction h with
  | loc h => exact hloc _ h
  | held v h1 h2 => exact hheld _ v h1 h2
  | par p h1 h2 h3 ih => exact hpar _ p h1 h2 h3 ih

/-! ### A thread accesses an object -/

section access
variable {s s' : State T} {K : Finset Nat} {v : T} {o : Nat}

theorem not_lost (hi : Inv s K) (ho : o ∈ K) : ¬ s.lost o := by
  have := hi.inK o ho
  rintro (h | h) <;> omega

theorem le_tick (t : Thread T) : t.view ≤ (tick v t).view := by
  intro u
  simp only [tick]
  by_cases h : u = v
  · subst h; simp
  · simp [Function.update_of_ne h]

structure AccessOk (s : State T) (v : T) (o : Nat) (b' : Obj T) (t' : Thread T) : Prop where
  kids : b'.kids = (s.objs o).kids
  frees : b'.frees = (s.objs o).frees
  view : (s.objs o).view ≤ b'.view
  acc : b'.acc = Function.update (s.objs o).acc v ((s.thr v).view v + 1)
  rc0 : (s.objs o).rc ≠ 0
  tview : (s.thr v).view ≤ t'.view
  rc : b'.rc - (s.objs o).rc = (t'.held.count o : Int) - (s.thr v).held.count o
  others : ∀ x, x ≠ o → t'.held.count x = (s.thr v).held.count x
  claims : claims t'.todo = claims (s.thr v).todo + if b'.rc = 0 then {o} else 0
  reads : ∀ x, .read x ∈ t'.todo ↔ .read x ∈ (s.thr v).todo ∨ (x = o ∧ b'.rc = 0)
  rel : ∀ x, .release x ∈ t'.todo ↔ .release x ∈ (s.thr v).todo
  kept : o ∈ (s.thr v).held → o ∈ t'.held ∨ (s.thr v).view ≤ b'.view

theorem Inv.access {b' : Obj T} {t' : Thread T} (hi : Inv s K) (ho : o ∈ K)
    (hobjs : s'.objs = Function.update s.objs o b') (hthr : s'.thr = Function.update s.thr v t')
    (hnext : s'.next = s.next) (hfault : s'.fault → s.fault ∨ s.lost o)
    (a : AccessOk s v o b' t') (hshape : Shape s'.objs t')
    (hnew : Cov s' K v ((s.thr v).view v + 1) o) : Inv s' K := by
  have kids : ∀ x, (s'.objs x).kids = (s.objs x).kids := by
    intro x; rw [hobjs]
    by_cases h : x = o
    · subst h; rw [Function.update_self]; exact a.kids
    · rw [Function.update_of_ne h]
  have frees : ∀ x, (s'.objs x).frees = (s.objs x).frees := by
    intro x; rw [hobjs]
    by_cases h : x = o
    · subst h; rw [Function.update_self]; exact a.frees
    · rw [Function.update_of_ne h]
  have view : ∀ x, (s.objs x).view ≤ (s'.objs x).view := by
    intro x; rw [hobjs]
    by_cases h : x = o
    · subst h; rw [Function.update_self]; exact a.view
    · rw [Function.update_of_ne h]
  have objo : s'.objs o = b' := by rw [hobjs, Function.update_self]
  have objx : ∀ x, x ≠ o → s'.objs x = s.objs x := fun x h => by
    rw [hobjs, Function.update_of_ne h]
  have thrv : s'.thr v = t' := by rw [hthr, Function.update_self]
  have thrw : ∀ w, w ≠ v → s'.thr w = s.thr w := fun w h => by
    rw [hthr, Function.update_of_ne h]
  have tview : ∀ w, (s.thr w).view ≤ (s'.thr w).view := by
    intro w
    by_cases h : w = v
    · subst h; rw [thrv]; exact a.tview
    · rw [thrw w h]
  have hrefs : refs s' K + (s.thr v).held = refs s K + t'.held := by
    have e := sum_update (T := T) Thread.held s.thr v t'
    have : ∑ p ∈ K, (↑(s'.objs p).kids : Multiset Nat) = ∑ p ∈ K, ↑(s.objs p).kids :=
      Finset.sum_congr rfl (fun p _ => by rw [kids])
    rw [refs, refs, this, hthr, add_right_comm, e]
    abel
  have cnt : ∀ x, (refs s' K).count x + (s.thr v).held.count x
      = (refs s K).count x + t'.held.count x := fun x => by
    rw [← Multiset.count_add, ← Multiset.count_add, hrefs]
  have hmem : ∀ x, x ≠ o → (x ∈ t'.held ↔ x ∈ (s.thr v).held) := fun x h => by
    rw [← Multiset.count_pos, ← Multiset.count_pos, a.others x h]
  have hcl : allClaims s' = allClaims s + if b'.rc = 0 then {o} else 0 := by
    have e := sum_update (T := T) (fun t => Thr.claims t.todo) s.thr v t'
    rw [a.claims] at e
    rw [allClaims, allClaims, hthr]
    have : ∀ A B C D : Multiset Nat, A + B = C + (B + D) → A = C + D := by
      intro A B C D h
      apply add_right_cancel (b := B)
      rw [h]; abel
    exact this _ _ _ _ e
  have covMap : ∀ u k x, Cov s K u k x → Cov s' K u k x := by
    intro u k x h
    refine Cov.map (fun x hx => .loc (le_trans hx (view x u))) (fun x w hw hk => ?_)
      (fun x p hp hx _ ih => .par p hp (by rw [kids]; exact hx) ih) h
    by_cases h1 : w = v
    · subst h1
      by_cases h2 : x = o
      · subst h2
        rcases a.kept hw with h3 | h3
        · exact .held w (by rw [thrv]; exact h3) (le_trans hk (tview w u))
        · exact .loc (by rw [objo]; exact le_trans hk (h3 u))
      · exact .held w (by rw [thrv]; exact (hmem x h2).2 hw) (le_trans hk (tview w u))
    · exact .held w (by rw [thrw w h1]; exact hw) (le_trans hk (tview w u))
  have hread : ∀ w x, .read x ∈ (s'.thr w).todo ↔
      .read x ∈ (s.thr w).todo ∨ (w = v ∧ x = o ∧ b'.rc = 0) := by
    intro w x
    by_cases h : w = v
    · subst h; rw [thrv, a.reads]; simp
    · rw [thrw w h]; simp [h]
  have hrel : ∀ w x, .release x ∈ (s'.thr w).todo ↔ .release x ∈ (s.thr w).todo := by
    intro w x
    by_cases h : w = v
    · subst h; rw [thrv, a.rel]
    · rw [thrw w h]
  have noread : ∀ w, .read o ∉ (s.thr w).todo := fun w h => a.rc0 (hi.reads w o h).2
  refine
    { ok := fun h => ?_
      inK := fun p hp => ⟨by rw [hnext]; exact (hi.inK p hp).1, by rw [frees]; exact (hi.inK p hp).2⟩
      order := fun p hp k hk => hi.order p hp k (by rw [kids] at hk; exact hk)
      refK := fun x hx => ?_
      count := fun x hx => ?_
      zero := fun x hx h0 => ?_
      reads := fun w x h => ?_
      rel := fun w x h => ?_
      nodup := ?_
      gone := fun x h1 h2 h3 => ?_
      once := fun x => by rw [frees]; exact hi.once x
      shape := fun w => ?_
      cov := fun x hx u => ?_ }
  · rcases hfault h with h | h
    · exact hi.ok h
    · exact not_lost hi ho h
  · by_cases h : x = o
    · rw [h]; exact ho
    · refine hi.refK x ?_
      have := cnt x
      rw [a.others x h] at this
      rw [← Multiset.count_pos] at hx ⊢
      omega
  · by_cases h : x = o
    · subst h
      rw [objo]
      have := cnt x
      have h1 := hi.count x hx
      have h2 := a.rc
      omega
    · rw [objx x h, hi.count x hx]
      have := cnt x
      rw [a.others x h] at this
      omega
  · by_cases h : x = o
    · subst h
      rw [objo] at h0
      exact ⟨v, (hread v x).2 (Or.inr ⟨rfl, rfl, h0⟩)⟩
    · rw [objx x h] at h0
      obtain ⟨w, hw⟩ := hi.zero x hx h0
      exact ⟨w, (hread w x).2 (Or.inl hw)⟩
  · rcases (hread w x).1 h with h | ⟨_, rfl, h⟩
    · have := hi.reads w x h
      refine ⟨this.1, ?_⟩
      rw [objx x (by rintro rfl; exact a.rc0 this.2)]
      exact this.2
    · exact ⟨ho, by rw [objo]; exact h⟩
  · have := hi.rel w x ((hrel w x).1 h)
    have hx : x ≠ o := by rintro rfl; exact this.1 ho
    rw [objx x hx, hnext]
    exact ⟨this.1, this.2.1, this.2.2.1, fun u => le_trans (this.2.2.2 u) (tview w u)⟩
  · rw [hcl]
    split
    · rw [add_comm, Multiset.singleton_add, Multiset.nodup_cons]
      refine ⟨fun h => ?_, hi.nodup⟩
      rw [allClaims, mem_sum_thr (f := fun t => Thr.claims t.todo)] at h
      obtain ⟨w, hw⟩ := h
      rcases mem_claims.1 hw with hw | hw
      · exact noread w hw
      · exact (hi.rel w o hw).1 ho
    · simpa using hi.nodup
  · obtain ⟨w, hw⟩ := hi.gone x (by rw [← hnext]; exact h1) h2 (by rw [← frees]; exact h3)
    exact ⟨w, (hrel w x).2 hw⟩
  · by_cases h : w = v
    · subst h; rw [thrv]; exact hshape
    · rw [thrw w h]
      rcases hi.shape w with h1 | ⟨x, l, h1, h2, h3⟩ | ⟨x, l, h1, h2, h3⟩
      · exact Or.inl h1
      · have : x ≠ o := by rintro rfl; exact noread w (by rw [h1]; simp)
        exact Or.inr (Or.inl ⟨x, l, h1, h2, by rw [objx x this]; exact h3⟩)
      · have : x ≠ o := by rintro rfl; exact noread w (by rw [h1]; simp)
        exact Or.inr (Or.inr ⟨x, l, h1, h2, by rw [objx x this]; exact h3⟩)
  · by_cases h : x = o
    · subst h
      rw [objo, a.acc]
      by_cases hu : u = v
      · subst hu; rw [Function.update_self]; exact hnew
      · rw [Function.update_of_ne hu]; exact covMap _ _ _ (hi.cov x hx u)
    · rw [objx x h]; exact covMap _ _ _ (hi.cov x hx u)

end access

/-! ### Changes of threads only -/

theorem Inv.threads {s s' : State T} {K : Finset Nat} (hi : Inv s K) (hobjs : s'.objs = s.objs)
    (hnext : s'.next = s.next) (hfault : s'.fault = s.fault)
    (hheld : ∑ v, (s'.thr v).held = ∑ v, (s.thr v).held)
    (hclaims : allClaims s' = allClaims s)
    (hread : ∀ v x, .read x ∈ (s'.thr v).todo ↔ .read x ∈ (s.thr v).todo)
    (hrel : ∀ v x, .release x ∈ (s'.thr v).todo ↔ .release x ∈ (s.thr v).todo)
    (hview : ∀ v, (s.thr v).view ≤ (s'.thr v).view)
    (hcov : ∀ v, ∀ x ∈ (s.thr v).held, ∃ w, x ∈ (s'.thr w).held ∧ (s.thr v).view ≤ (s'.thr w).view)
    (hshape : ∀ v, Shape s.objs (s'.thr v)) : Inv s' K := by
  have hrefs : refs s' K = refs s K := by rw [refs, refs, hheld, hobjs]
  refine
    { ok := by rw [hfault]; exact hi.ok
      inK := by rw [hobjs, hnext]; exact hi.inK
      order := by rw [hobjs]; exact hi.order
      refK := by rw [hrefs]; exact hi.refK
      count := by rw [hrefs, hobjs]; exact hi.count
      zero := fun x hx h0 => ?_
      reads := fun w x h => by rw [hobjs]; exact hi.reads w x ((hread w x).1 h)
      rel := fun w x h => ?_
      nodup := by rw [hclaims]; exact hi.nodup
      gone := fun x h1 h2 h3 => ?_
      once := by rw [hobjs]; exact hi.once
      shape := by rw [hobjs]; exact hshape
      cov := fun x hx u => ?_ }
  · obtain ⟨w, hw⟩ := hi.zero x hx (by rw [hobjs] at h0; exact h0)
    exact ⟨w, (hread w x).2 hw⟩
  · have := hi.rel w x ((hrel w x).1 h)
    rw [hobjs, hnext]
    exact ⟨this.1, this.2.1, this.2.2.1, fun u => le_trans (this.2.2.2 u) (hview w u)⟩
  · obtain ⟨w, hw⟩ := hi.gone x (by rw [← hnext]; exact h1) h2 (by rw [← hobjs]; exact h3)
    exact ⟨w, (hrel w x).2 hw⟩
  · rw [hobjs]
    refine Cov.map (fun x hx => .loc (by rw [hobjs]; exact hx)) (fun x w hw hk => ?_)
      (fun x p hp hx _ ih => .par p hp (by rw [hobjs]; exact hx) ih) (hi.cov x hx u)
    obtain ⟨w', h1, h2⟩ := hcov w x hw
    exact .held w' h1 (le_trans hk (h2 u))

/-- A change of one thread. -/
theorem Inv.setThr {s : State T} {K : Finset Nat} (hi : Inv s K) {v : T} {t : Thread T}
    (hheld : t.held = (s.thr v).held) (hclaims : claims t.todo = claims (s.thr v).todo)
    (hread : ∀ x, .read x ∈ t.todo ↔ .read x ∈ (s.thr v).todo)
    (hrel : ∀ x, .release x ∈ t.todo ↔ .release x ∈ (s.thr v).todo)
    (hview : (s.thr v).view ≤ t.view) (hshape : Shape s.objs t) : Inv (s.setThr v t) K := by
  have thr : ∀ w, (s.setThr v t).thr w = if w = v then t else s.thr w := fun w => by
    simp [State.setThr, Function.update_apply]
  refine hi.threads rfl rfl rfl ?_ ?_ (fun w x => ?_) (fun w x => ?_) (fun w => ?_)
    (fun w x hx => ⟨w, ?_, ?_⟩) (fun w => ?_)
  · have e := sum_update (T := T) Thread.held s.thr v t
    rw [hheld] at e
    exact add_right_cancel e
  · have e := sum_update (T := T) (fun t => claims t.todo) s.thr v t
    rw [hclaims] at e
    exact add_right_cancel e
  all_goals
    rw [thr]
    split
    · rename_i h; subst h; first | exact hread x | exact hrel x | exact hview | exact hshape | (rw [hheld]; exact hx)
    · first | exact Iff.rfl | exact le_refl _ | exact hx | exact hi.shape w

/-! ### The steps -/

section steps
variable {s : State T} {K : Finset Nat} {v w : T} {o : Nat} {rest : List Act}

/-- What a thread reaches covers its own actions. -/
theorem reach_cov {s' : State T} (hi : Inv s K) (kids : ∀ x, (s'.objs x).kids = (s.objs x).kids)
    (hown : ∀ x ∈ (s.thr v).own, x ∈ (s'.thr v).own) (h : Reach s (s.thr v).own o) {u : T} {k : Nat}
    (hk : k ≤ (s'.thr v).view u) : Cov s' K u k o := by
  induction h with
  | root h => exact .held v (Multiset.mem_add.2 (Or.inl (hown _ h))) hk
  | step hr hm ih => exact .par _ (hi.reach hr).1.1 (by rw [kids]; exact hm) ih

theorem tick_self (t : Thread T) : (tick v t).view v = t.view v + 1 := by simp [tick]

theorem shape_nil {objs : Nat → Obj T} {t : Thread T} (h : t.todo = []) : Shape objs t :=
  Or.inl (by simp [h])

theorem access_kids (f : Obj T → Obj T) (hf : ∀ b, (f b).kids = b.kids) (g : Thread T → Thread T) (x : Nat) :
    ((s.access v o f g).objs x).kids = (s.objs x).kids := by
  simp only [State.access]
  by_cases h : x = o
  · subst h; rw [Function.update_self, hf]; rfl
  · rw [Function.update_of_ne h]

theorem use_ok (hi : Inv s K) (hr : Reach s (s.thr v).own o) (ht : (s.thr v).todo = []) :
    Inv (s.access v o id id) K := by
  have h0 := hi.reach hr
  refine hi.access (v := v) (o := o) h0.1.1 rfl rfl rfl id ?_ ?_ ?_
  · refine ⟨rfl, rfl, le_refl _, rfl, h0.1.2, le_tick _, ?_, fun x _ => rfl, ?_, fun x => ?_, fun x => Iff.rfl, Or.inl⟩
    · simp [Obj.touch, tick, Thread.held]
    · simp [Obj.touch, tick, h0.1.2]
    · simp [Obj.touch, tick, h0.1.2]
  · exact shape_nil ht
  · refine reach_cov (v := v) hi (access_kids _ (fun _ => rfl) _) ?_ hr ?_
    · simp [State.access, tick]
    · simp [State.access, tick_self]

theorem retain_ok (hi : Inv s K) (hr : Reach s (s.thr v).own o) (ht : (s.thr v).todo = []) :
    Inv (s.retain v o) K := by
  have h0 := hi.reach hr
  have hrc : (s.objs o).rc + 1 ≠ 0 := by
    rw [hi.count o h0.1.1]; omega
  refine hi.access (v := v) (o := o) h0.1.1 rfl rfl rfl id ?_ ?_ ?_
  · refine ⟨rfl, rfl, le_refl _, rfl, h0.1.2, le_tick _, ?_, fun x hx => ?_, ?_, fun x => ?_, fun x => Iff.rfl, ?_⟩
    · simp [Obj.touch, tick, Thread.held]
    · simp [tick, Thread.held, hx]
    · simp [Obj.touch, tick, hrc]
    · simp [Obj.touch, tick, hrc]
    · intro _; left; simp [Thread.held]
  · exact shape_nil ht
  · refine .held v ?_ (le_of_eq ?_)
    · simp [State.retain, State.access, Thread.held]
    · simp [State.retain, State.access, tick_self]

theorem sub_ok (hi : Inv s K) (ht : (s.thr v).todo = .sub o :: rest) :
    Inv (s.act v rest (.sub o)) K := by
  have hh : o ∈ (s.thr v).held := by simp [Thread.held, ht, subs]
  have h0 := hi.held hh
  have plain : ∀ a ∈ rest, a.plain := by
    rcases hi.shape v with h | ⟨x, l, h, _⟩ | ⟨x, l, h, _⟩
    · intro a ha; exact h a (by rw [ht]; simp [ha])
    · rw [ht] at h; cases h
    · rw [ht] at h; cases h
  refine hi.access (v := v) (o := o) h0.1 rfl rfl rfl id ?_ ?_ ?_
  · have e : ∀ l, subs (after o l rest) = subs rest := by
      intro l; unfold after; split <;> simp [subs]
    refine ⟨rfl, rfl, le_sup_left, rfl, h0.2, le_tick _, ?_, fun x hx => ?_, ?_, fun x => ?_, fun x => ?_, ?_⟩
    · simp [Obj.touch, tick, Thread.held, ht, subs, e]
    · simp [tick, Thread.held, hx, ht, subs, e]
    · simp only [Obj.touch, ht, claims, after]
      by_cases h : (s.objs o).rc = 1
      · simp [h, claims, add_comm]
      · simp [h, sub_eq_zero]
    · simp only [Obj.touch, ht, after]
      by_cases h : (s.objs o).rc = 1
      · simp [h, or_comm]
      · simp [h, sub_eq_zero]
    · simp only [ht, after]
      by_cases h : (s.objs o).rc = 1
      · simp [h]
      · simp [h]
    · intro _; right
      exact le_trans (le_tick _) le_sup_right
  · dsimp only [Obj.touch]
    by_cases h : (s.objs o).rc = 1
    · refine Or.inr (Or.inl ⟨o, rest, by simp [after, h], plain, ?_⟩)
      simp only [State.act, State.access, Function.update_self, Obj.touch]
      exact sup_le (le_trans le_sup_right le_sup_right) le_sup_left
    · refine Or.inl ?_
      simpa [after, h] using plain
  · refine .loc ?_
    simp only [State.act, State.access, Function.update_self, Obj.touch]
    rw [Pi.sup_apply, tick_self]
    exact le_sup_right

theorem fence_ok (hi : Inv s K) (ht : (s.thr v).todo = .fence :: rest) :
    Inv (s.act v rest .fence) K := by
  refine hi.setThr ?_ ?_ (fun x => ?_) (fun x => ?_) le_sup_left ?_
  · simp [Thread.held, ht, subs]
  · simp [ht, claims]
  · simp [ht]
  · simp [ht]
  · rcases hi.shape v with h | ⟨x, l, h, h2, h3⟩ | ⟨x, l, h, _⟩
    · exact absurd (h .fence (by rw [ht]; simp)) id
    · rw [ht] at h
      cases h
      exact Or.inr (Or.inr ⟨x, l, rfl, h2, h3⟩)
    · rw [ht] at h; cases h

theorem free_ok (hi : Inv s K) (ht : (s.thr v).todo = []) (ho : o ∈ (s.thr v).own) :
    Inv (s.free v o) K := by
  refine hi.setThr ?_ ?_ (fun x => ?_) (fun x => ?_) (le_refl _) (Or.inl ?_)
  · simp only [Thread.held, ht, subs]
    rw [Multiset.add_cons, add_zero, add_zero, Multiset.cons_erase ho]
  · simp [ht, claims]
  · simp [ht]
  · simp [ht]
  · simp [Act.plain]

theorem sync_ok (hi : Inv s K) : Inv (s.sync v w) K := by
  refine hi.setThr rfl rfl (fun x => Iff.rfl) (fun x => Iff.rfl) le_sup_left ?_
  rcases hi.shape w with h | ⟨x, l, h, h2, h3⟩ | ⟨x, l, h, h2, h3⟩
  · exact Or.inl h
  · exact Or.inr (Or.inl ⟨x, l, h, h2, le_trans h3 (sup_le (le_trans le_sup_left le_sup_left) le_sup_right)⟩)
  · exact Or.inr (Or.inr ⟨x, l, h, h2, le_trans h3 le_sup_left⟩)

theorem move_ok (hi : Inv s K) (ho : o ∈ (s.thr v).own) (hv : (s.thr v).view ≤ (s.thr w).view) :
    Inv ((s.drop v o).take w o) K := by
  have todo : ∀ x, (((s.drop v o).take w o).thr x).todo = (s.thr x).todo := by
    intro x
    simp only [State.drop, State.take, State.setThr, Function.update_apply]
    split <;> (try split) <;> simp_all
  have view : ∀ x, (((s.drop v o).take w o).thr x).view = (s.thr x).view := by
    intro x
    simp only [State.drop, State.take, State.setThr, Function.update_apply]
    split <;> (try split) <;> simp_all
  have acq : ∀ x, (((s.drop v o).take w o).thr x).acq = (s.thr x).acq := by
    intro x
    simp only [State.drop, State.take, State.setThr, Function.update_apply]
    split <;> (try split) <;> simp_all
  have hcov : ∀ x i, i ∈ (s.thr x).held →
      i ∈ (((s.drop v o).take w o).thr x).held ∨ (x = v ∧ i = o) := by
    intro x i hi
    by_cases h : x = v ∧ i = o
    · exact Or.inr h
    · left
      simp only [Thread.held, Multiset.mem_add] at hi ⊢
      rw [todo]
      rcases hi with hi | hi
      · left
        have h1 : i ∈ ((s.drop v o).thr x).own := by
          simp only [State.drop, State.setThr, Function.update_apply]
          split
          · rename_i e; subst e
            exact (Multiset.mem_erase_of_ne (by simpa using h)).2 hi
          · exact hi
        simp only [State.take, State.setThr, Function.update_apply]
        split
        · rename_i e; subst e
          exact Multiset.mem_cons_of_mem h1
        · exact h1
      · exact Or.inr hi
  refine hi.threads rfl rfl rfl ?_ ?_ (fun x i => by rw [todo]) (fun x i => by rw [todo])
    (fun x => by rw [view]) (fun x i hx => ?_) (fun x => ?_)
  · have e1 := sum_update (T := T) Thread.held s.thr v { s.thr v with own := (s.thr v).own.erase o }
    have e2 := sum_update (T := T) Thread.held (s.drop v o).thr w
      { (s.drop v o).thr w with own := o ::ₘ ((s.drop v o).thr w).own }
    have h1 : ({ s.thr v with own := (s.thr v).own.erase o } : Thread T).held + {o} = (s.thr v).held := by
      simp only [Thread.held]
      conv_rhs => rw [← Multiset.cons_erase ho]
      rw [← Multiset.singleton_add]; abel
    have h2 : ({ (s.drop v o).thr w with own := o ::ₘ ((s.drop v o).thr w).own } : Thread T).held
        = ((s.drop v o).thr w).held + {o} := by
      simp only [Thread.held]
      rw [← Multiset.singleton_add]; abel
    rw [h2] at e2
    rw [← h1] at e1
    have g1 : ∑ x, ((s.drop v o).thr x).held + {o} = ∑ x, (s.thr x).held := by
      apply add_right_cancel (b := ({ s.thr v with own := (s.thr v).own.erase o } : Thread T).held)
      rw [← e1]
      simp only [State.drop, State.setThr]
      abel
    apply add_right_cancel (b := ((s.drop v o).thr w).held)
    rw [← g1]
    refine Eq.trans e2 ?_
    abel
  · simp only [allClaims, todo]
  · rcases hcov x i hx with h | ⟨rfl, rfl⟩
    · exact ⟨x, h, by rw [view]⟩
    · refine ⟨w, ?_, by rw [view]; exact hv⟩
      simp [State.take, State.setThr, Thread.held]
  · rcases hi.shape x with h | ⟨i, l, h, h2, h3⟩ | ⟨i, l, h, h2, h3⟩
    · exact Or.inl (by rw [todo]; exact h)
    · exact Or.inr (Or.inl ⟨i, l, by rw [todo]; exact h, h2, by rw [view, acq]; exact h3⟩)
    · exact Or.inr (Or.inr ⟨i, l, by rw [todo]; exact h, h2, by rw [view]; exact h3⟩)

theorem give_ok (hi : Inv s K) (ho : o ∈ (s.thr v).own) :
    Inv (((s.sync v w).drop v o).take w o) K := by
  have h := sync_ok (v := v) (w := w) hi
  refine move_ok h ?_ ?_
  · simp only [State.sync, State.setThr, Function.update_apply]
    split
    · rename_i e; subst e; exact ho
    · exact ho
  · simp only [State.sync, State.setThr, Function.update_apply]
    split
    · rename_i e; subst e; simp
    · simp

/-- An object is claimed by one thread only. -/
theorem claim_one (hi : Inv s K) {x : Nat} (hv : x ∈ claims (s.thr v).todo)
    (hw : x ∈ claims (s.thr w).todo) : v = w := by
  by_contra hne
  have h := hi.nodup
  rw [allClaims, ← Finset.add_sum_erase _ _ (Finset.mem_univ v),
    ← Finset.add_sum_erase _ _ (Finset.mem_erase.2 ⟨Ne.symm hne, Finset.mem_univ w⟩)] at h
  have h2 := (Multiset.nodup_add.1 h).2.2
  rw [Multiset.disjoint_left] at h2
  exact h2 hv (Multiset.mem_add.2 (Or.inl hw))

theorem claim_thread (hi : Inv s K) (v : T) : (claims (s.thr v).todo).Nodup := by
  have h := hi.nodup
  rw [allClaims, ← Finset.add_sum_erase _ _ (Finset.mem_univ v)] at h
  exact (Multiset.nodup_add.1 h).1

/-- If nobody has a reference, coverage is by the counter. -/
theorem cov_zero (hi : Inv s K) (h0 : (s.objs o).rc = 0) {u : T} {k : Nat}
    (h : Cov s K u k o) : k ≤ (s.objs o).view u := by
  cases h with
  | loc h => exact h
  | held v h _ => exact absurd h0 (hi.held h).2
  | par p hp h _ => exact absurd h0 (hi.kid hp h).2

theorem read_ok (hi : Inv s K) (ht : (s.thr v).todo = .read o :: rest) :
    Inv (s.act v rest (.read o)) (K.erase o) := by
  have hmem : .read o ∈ (s.thr v).todo := by rw [ht]; simp
  obtain ⟨ho, h0⟩ := hi.reads v o hmem
  obtain ⟨plain, hview⟩ : (∀ a ∈ rest, a.plain) ∧ (s.objs o).view ≤ (s.thr v).view := by
    rcases hi.shape v with h | ⟨x, l, h, _⟩ | ⟨x, l, h, h2, h3⟩
    · exact absurd (h _ hmem) id
    · rw [ht] at h; cases h
    · rw [ht] at h; cases h; exact ⟨h2, h3⟩
  set t' : Thread T :=
    { tick v (s.thr v) with todo := (s.objs o).kids.map .sub ++ .release o :: rest } with ht'
  set s' := s.act v rest (.read o) with hs'
  have thrv : s'.thr v = t' := by simp [hs', State.act, State.access, ht']
  have thrw : ∀ w, w ≠ v → s'.thr w = s.thr w := fun w h => by
    simp [hs', State.act, State.access, Function.update_of_ne h]
  have objo : s'.objs o = (s.objs o).touch v ((s.thr v).view v + 1) := by
    simp [hs', State.act, State.access]
  have objx : ∀ x, x ≠ o → s'.objs x = s.objs x := fun x h => by
    simp [hs', State.act, State.access, Function.update_of_ne h]
  have kids : ∀ x, (s'.objs x).kids = (s.objs x).kids := fun x => by
    by_cases h : x = o
    · subst h; rw [objo]; rfl
    · rw [objx x h]
  have frees : ∀ x, (s'.objs x).frees = (s.objs x).frees := fun x => by
    by_cases h : x = o
    · subst h; rw [objo]; rfl
    · rw [objx x h]
  have rc : ∀ x, (s'.objs x).rc = (s.objs x).rc := fun x => by
    by_cases h : x = o
    · subst h; rw [objo]; rfl
    · rw [objx x h]
  have oview : ∀ x, (s'.objs x).view = (s.objs x).view := fun x => by
    by_cases h : x = o
    · subst h; rw [objo]; rfl
    · rw [objx x h]
  have tview : ∀ w, (s.thr w).view ≤ (s'.thr w).view := by
    intro w
    by_cases h : w = v
    · subst h; rw [thrv]; exact le_tick _
    · rw [thrw w h]
  have subs' : subs t'.todo = ↑(s.objs o).kids + subs rest := by
    rw [ht', subs_append, subs_map]; simp [subs]
  have held' : t'.held = (s.thr v).held + ↑(s.objs o).kids := by
    rw [Thread.held, subs', Thread.held, ht]
    simp only [subs, ht', tick]
    abel
  have thr_eq : s'.thr = Function.update s.thr v t' := by
    simp [hs', State.act, State.access, ht']
  have hrefs : refs s' (K.erase o) = refs s K := by
    have e := sum_update (T := T) Thread.held s.thr v t'
    rw [held'] at e
    have e2 : ∑ x, (s'.thr x).held = ∑ x, (s.thr x).held + ↑(s.objs o).kids := by
      apply add_right_cancel (b := (s.thr v).held)
      rw [thr_eq, e]; abel
    rw [refs, refs, e2, ← Finset.add_sum_erase _ _ ho]
    simp only [kids]
    abel
  have norefs : o ∉ refs s K := by
    intro h
    have h1 := hi.count o ho
    have := Multiset.count_pos.2 h
    omega
  have hcl : allClaims s' = allClaims s := by
    have e := sum_update (T := T) (fun t => claims t.todo) s.thr v t'
    have : claims t'.todo = claims (s.thr v).todo := by
      rw [ht', claims_append, claims_map, ht]; simp [claims]
    rw [this] at e
    rw [allClaims, allClaims, thr_eq]
    exact add_right_cancel e
  have nextEq : s'.next = s.next := rfl
  refine
    { ok := fun h => ?_
      inK := fun p hp => ?_
      order := fun p hp k hk => hi.order p (Finset.mem_of_mem_erase hp) k (by rw [kids] at hk; exact hk)
      refK := fun x hx => ?_
      count := fun x hx => by rw [rc, hrefs]; exact hi.count x (Finset.mem_of_mem_erase hx)
      zero := fun x hx hz => ?_
      reads := fun w x h => ?_
      rel := fun w x h => ?_
      nodup := by rw [hcl]; exact hi.nodup
      gone := fun x h1 h2 h3 => ?_
      once := fun x => by rw [frees]; exact hi.once x
      shape := fun w => ?_
      cov := fun x hx u => ?_ }
  · rcases h with h | h
    · exact hi.ok h
    · exact not_lost hi ho h
  · rw [frees]; exact hi.inK p (Finset.mem_of_mem_erase hp)
  · rw [hrefs] at hx
    exact Finset.mem_erase.2 ⟨by rintro rfl; exact norefs hx, hi.refK x hx⟩
  · obtain ⟨hne, hx⟩ := Finset.mem_erase.1 hx
    obtain ⟨w, hw⟩ := hi.zero x hx (by rw [← rc]; exact hz)
    refine ⟨w, ?_⟩
    by_cases h : w = v
    · subst h
      rw [ht] at hw
      simp [hne] at hw
      exact absurd (plain _ hw) id
    · rw [thrw w h]; exact hw
  · by_cases hw : w = v
    · subst hw
      rw [thrv, ht'] at h
      simp at h
      exact absurd (plain _ h) id
    · rw [thrw w hw] at h
      obtain ⟨h1, h2⟩ := hi.reads w x h
      refine ⟨Finset.mem_erase.2 ⟨?_, h1⟩, by rw [rc]; exact h2⟩
      rintro rfl
      exact hw (claim_one hi (mem_claims.2 (Or.inl h)) (mem_claims.2 (Or.inl hmem)))
  · by_cases hx : x = o
    · subst hx
      have hwv : w = v := by
        by_contra hw
        rw [thrw w hw] at h
        exact (hi.rel w x h).1 ho
      subst hwv
      refine ⟨by simp, (hi.inK x ho).1, by rw [frees]; exact (hi.inK x ho).2, fun u => ?_⟩
      rw [objo, thrv]
      simp only [Obj.touch, ht']
      by_cases hu : u = w
      · subst hu; rw [Function.update_self, tick_self]
      · rw [Function.update_of_ne hu]
        exact le_trans (cov_zero hi h0 (hi.cov x ho u)) (le_trans (hview u) (le_tick _ u))
    · have hold : .release x ∈ (s.thr w).todo := by
        by_cases hw : w = v
        · subst hw
          rw [thrv, ht'] at h
          rw [ht]
          simpa [hx] using h
        · rw [thrw w hw] at h; exact h
      have := hi.rel w x hold
      rw [objx x hx]
      exact ⟨fun hh => this.1 (Finset.mem_of_mem_erase hh), this.2.1, this.2.2.1,
        fun u => le_trans (this.2.2.2 u) (tview w u)⟩
  · by_cases hx : x = o
    · subst hx
      exact ⟨v, by rw [thrv, ht']; simp⟩
    · obtain ⟨w, hw⟩ := hi.gone x h1 (fun hh => h2 (Finset.mem_erase.2 ⟨hx, hh⟩)) (by rw [← frees]; exact h3)
      refine ⟨w, ?_⟩
      by_cases h : w = v
      · subst h
        rw [ht] at hw
        rw [thrv, ht']
        simp [hx] at hw ⊢
        exact hw
      · rw [thrw w h]; exact hw
  · by_cases h : w = v
    · subst h
      rw [thrv]
      refine Or.inl (fun a ha => ?_)
      rw [ht'] at ha
      simp at ha
      rcases ha with ⟨x, _, rfl⟩ | rfl | ha
      · trivial
      · trivial
      · exact plain a ha
    · rw [thrw w h]
      rcases hi.shape w with h1 | ⟨x, l, h1, h2, h3⟩ | ⟨x, l, h1, h2, h3⟩
      · exact Or.inl h1
      · exact Or.inr (Or.inl ⟨x, l, h1, h2, by rw [oview]; exact h3⟩)
      · exact Or.inr (Or.inr ⟨x, l, h1, h2, by rw [oview]; exact h3⟩)
  · obtain ⟨hne, hxK⟩ := Finset.mem_erase.1 hx
    rw [objx x hne]
    have hheld : ∀ i w, i ∈ (s.thr w).held → i ∈ (s'.thr w).held := by
      intro i w hi
      by_cases h : w = v
      · subst h; rw [thrv, held']; exact Multiset.mem_add.2 (Or.inl hi)
      · rw [thrw w h]; exact hi
    refine Cov.map (fun i h => .loc (by rw [oview]; exact h))
      (fun i w hw hk => .held w (hheld i w hw) (le_trans hk (tview w u)))
      (fun i p hp hm hc ih => ?_) (hi.cov x hxK u)
    by_cases hpo : p = o
    · subst hpo
      refine .held v ?_ (le_trans (cov_zero hi h0 hc) (le_trans (hview u) (tview v u)))
      rw [thrv, held']
      exact Multiset.mem_add.2 (Or.inr (by simpa using hm))
    · exact .par p (Finset.mem_erase.2 ⟨hpo, hp⟩) (by rw [kids]; exact hm) ih

theorem release_ok (hi : Inv s K) (ht : (s.thr v).todo = .release o :: rest) :
    Inv (s.act v rest (.release o)) K := by
  have hmem : .release o ∈ (s.thr v).todo := by rw [ht]; simp
  obtain ⟨ho, hlt, hf, hacc⟩ := hi.rel v o hmem
  have hnd : o ∉ claims rest := by
    have := claim_thread hi v
    rw [ht] at this
    exact (Multiset.nodup_cons.1 this).1
  set t' : Thread T := { s.thr v with todo := rest } with ht'
  set s' := s.act v rest (.release o) with hs'
  have thrv : s'.thr v = t' := by simp [hs', State.act, ht']
  have thrw : ∀ w, w ≠ v → s'.thr w = s.thr w := fun w h => by
    simp [hs', State.act, Function.update_of_ne h]
  have objo : s'.objs o = { s.objs o with frees := (s.objs o).frees + 1 } := by
    simp [hs', State.act]
  have objx : ∀ x, x ≠ o → s'.objs x = s.objs x := fun x h => by
    simp [hs', State.act, Function.update_of_ne h]
  have objK : ∀ x ∈ K, s'.objs x = s.objs x := fun x hx => objx x (by rintro rfl; exact ho hx)
  have thr_eq : s'.thr = Function.update s.thr v t' := by simp [hs', State.act, ht']
  have tview : ∀ w, (s'.thr w).view = (s.thr w).view := by
    intro w
    by_cases h : w = v
    · subst h; rw [thrv]
    · rw [thrw w h]
  have held : ∀ w, (s'.thr w).held = (s.thr w).held := by
    intro w
    by_cases h : w = v
    · subst h; rw [thrv]; simp [Thread.held, ht', ht, subs]
    · rw [thrw w h]
  have hrefs : refs s' K = refs s K := by
    rw [refs, refs]
    congr 1
    · exact Finset.sum_congr rfl (fun w _ => held w)
    · exact Finset.sum_congr rfl (fun p hp => by rw [objK p hp])
  have hcl : allClaims s = o ::ₘ allClaims s' := by
    have e := sum_update (T := T) (fun t => claims t.todo) s.thr v t'
    rw [ht] at e
    rw [allClaims, allClaims, thr_eq]
    apply add_right_cancel (b := claims t'.todo)
    rw [← e]
    simp only [claims, ht']
    rw [Multiset.add_cons, Multiset.cons_add]
  have hnot : o ∉ allClaims s' := by
    have := hi.nodup
    rw [hcl] at this
    exact (Multiset.nodup_cons.1 this).1
  have htodo : ∀ w a, a ≠ .release o → (a ∈ (s'.thr w).todo ↔ a ∈ (s.thr w).todo) := by
    intro w a ha
    by_cases h : w = v
    · subst h; rw [thrv, ht]; simp [ht', ha]
    · rw [thrw w h]
  have hnrel : ∀ w, .release o ∉ (s'.thr w).todo := fun w h =>
    hnot ((mem_sum_thr (f := fun t => claims t.todo)).2 ⟨w, mem_claims.2 (Or.inr h)⟩)
  refine
    { ok := fun h => ?_
      inK := fun p hp => by rw [objK p hp]; exact hi.inK p hp
      order := fun p hp k hk => hi.order p hp k (by rw [objK p hp] at hk; exact hk)
      refK := fun x hx => hi.refK x (by rw [hrefs] at hx; exact hx)
      count := fun x hx => by rw [objK x hx, hrefs]; exact hi.count x hx
      zero := fun x hx hz => ?_
      reads := fun w x h => ?_
      rel := fun w x h => ?_
      nodup := ?_
      gone := fun x h1 h2 h3 => ?_
      once := fun x => ?_
      shape := fun w => ?_
      cov := fun x hx u => ?_ }
  · rcases h with h | (h | h) | ⟨u, h⟩
    · exact hi.ok h
    · omega
    · omega
    · exact h (hacc u)
  · obtain ⟨w, hw⟩ := hi.zero x hx (by rw [← objK x hx]; exact hz)
    exact ⟨w, (htodo w _ (by simp)).2 hw⟩
  · have := hi.reads w x ((htodo w _ (by simp)).1 h)
    exact ⟨this.1, by rw [objK x this.1]; exact this.2⟩
  · by_cases hx : x = o
    · subst hx; exact absurd h (hnrel w)
    · rw [objx x hx, tview]
      exact hi.rel w x ((htodo w _ (by simp [hx])).1 h)
  · have := hi.nodup
    rw [hcl] at this
    exact (Multiset.nodup_cons.1 this).2
  · by_cases hx : x = o
    · subst hx; rw [objo] at h3; simp at h3
    · rw [objx x hx] at h3
      obtain ⟨w, hw⟩ := hi.gone x h1 h2 h3
      exact ⟨w, (htodo w _ (by simp [hx])).2 hw⟩
  · by_cases hx : x = o
    · subst hx; rw [objo]; simp [hf]
    · rw [objx x hx]; exact hi.once x
  · by_cases h : w = v
    · subst h
      rw [thrv]
      refine Or.inl (fun a ha => ?_)
      rcases hi.shape w with h | ⟨x, l, h, _⟩ | ⟨x, l, h, _⟩
      · exact h a (by rw [ht]; simp [ht'] at ha; simp [ha])
      · rw [ht] at h; cases h
      · rw [ht] at h; cases h
    · rw [thrw w h]
      have key : ∀ x, .read x ∈ (s.thr w).todo → (s'.objs x).view = (s.objs x).view := fun x hx => by
        rw [objK x (hi.reads w x hx).1]
      rcases hi.shape w with h1 | ⟨x, l, h1, h2, h3⟩ | ⟨x, l, h1, h2, h3⟩
      · exact Or.inl h1
      · exact Or.inr (Or.inl ⟨x, l, h1, h2, by rw [key x (by rw [h1]; simp)]; exact h3⟩)
      · exact Or.inr (Or.inr ⟨x, l, h1, h2, by rw [key x (by rw [h1]; simp)]; exact h3⟩)
  · rw [objK x hx]
    refine Cov.map (fun i h => .loc ?_) (fun i w hw hk => .held w (by rw [held]; exact hw) (by rw [tview]; exact hk))
      (fun i p hp hm hc ih => .par p hp (by rw [objK p hp]; exact hm) ih) (hi.cov x hx u)
    by_cases h1 : i = o
    · subst h1; rw [objo]; exact h
    · rw [objx i h1]; exact h

theorem make_ok (hi : Inv s K) {ks : List Nat} (ht : (s.thr v).todo = [])
    (hk : ↑ks ≤ (s.thr v).own) : Inv (s.make v ks) (insert s.next K) := by
  have hnK : s.next ∉ K := fun h => by have := (hi.inK _ h).1; omega
  set t' : Thread T := { tick v (s.thr v) with own := s.next ::ₘ ((s.thr v).own - ↑ks) } with ht'
  set s' := s.make v ks with hs'
  have thr_eq : s'.thr = Function.update s.thr v t' := by simp [hs', State.make, ht']
  have thrv : s'.thr v = t' := by rw [thr_eq, Function.update_self]
  have thrw : ∀ w, w ≠ v → s'.thr w = s.thr w := fun w h => by
    rw [thr_eq, Function.update_of_ne h]
  have objo : s'.objs s.next =
      ⟨ks, 1, fun _ => 0, Function.update (fun _ => 0) v ((s.thr v).view v + 1), 0⟩ := by
    simp [hs', State.make]
  have objx : ∀ x, x ≠ s.next → s'.objs x = s.objs x := fun x h => by
    simp [hs', State.make, Function.update_of_ne h]
  have objK : ∀ x ∈ K, s'.objs x = s.objs x := fun x hx => objx x (by rintro rfl; exact hnK hx)
  have todo : ∀ w, (s'.thr w).todo = (s.thr w).todo := by
    intro w
    by_cases h : w = v
    · subst h; rw [thrv, ht']; rfl
    · rw [thrw w h]
  have tview : ∀ w, (s.thr w).view ≤ (s'.thr w).view := by
    intro w
    by_cases h : w = v
    · subst h; rw [thrv]; exact le_tick _
    · rw [thrw w h]
  have held' : t'.held + ↑ks = {s.next} + (s.thr v).held := by
    obtain ⟨r, hr⟩ := Multiset.le_iff_exists_add.1 hk
    have e : (s.thr v).own - ↑ks = r := by rw [hr, add_tsub_cancel_left]
    simp only [Thread.held, ht', tick, ht, subs]
    rw [e, hr, ← Multiset.singleton_add]
    abel
  have hks : ∀ k ∈ ks, k ∈ K := fun k h =>
    (hi.held (v := v) (Multiset.mem_add.2 (Or.inl (Multiset.mem_of_le hk (by simpa using h))))).1
  have hrefs : refs s' (insert s.next K) = s.next ::ₘ refs s K := by
    have e := sum_update (T := T) Thread.held s.thr v t'
    have e2 : ∑ x, (s'.thr x).held + ↑ks = {s.next} + ∑ x, (s.thr x).held := by
      apply add_right_cancel (b := (s.thr v).held)
      rw [thr_eq, add_right_comm, e, add_assoc, held']
      abel
    have e3 : ∑ p ∈ K, (↑(s'.objs p).kids : Multiset Nat) = ∑ p ∈ K, ↑(s.objs p).kids :=
      Finset.sum_congr rfl (fun p hp => by rw [objK p hp])
    rw [refs, refs, Finset.sum_insert hnK, objo, e3, ← add_assoc, e2, ← Multiset.singleton_add]
    abel
  have hnr : s.next ∉ refs s K := fun h => hnK (hi.refK _ h)
  refine
    { ok := hi.ok
      inK := fun p hp => ?_
      order := fun p hp k hk => ?_
      refK := fun x hx => ?_
      count := fun x hx => ?_
      zero := fun x hx hz => ?_
      reads := fun w x h => ?_
      rel := fun w x h => ?_
      nodup := ?_
      gone := fun x h1 h2 h3 => ?_
      once := fun x => ?_
      shape := fun w => ?_
      cov := fun x hx u => ?_ }
  · rcases Finset.mem_insert.1 hp with rfl | hp
    · rw [objo]; exact ⟨Nat.lt_succ_self _, rfl⟩
    · rw [objK p hp]; exact ⟨Nat.lt_succ_of_lt (hi.inK p hp).1, (hi.inK p hp).2⟩
  · rcases Finset.mem_insert.1 hp with rfl | hp
    · rw [objo] at hk; exact (hi.inK k (hks k hk)).1
    · rw [objK p hp] at hk; exact hi.order p hp k hk
  · rw [hrefs] at hx
    rcases Multiset.mem_cons.1 hx with rfl | hx
    · simp
    · exact Finset.mem_insert_of_mem (hi.refK x hx)
  · rw [hrefs]
    rcases Finset.mem_insert.1 hx with rfl | hx
    · rw [objo, Multiset.count_cons_self, Multiset.count_eq_zero.2 hnr]; rfl
    · rw [objK x hx, Multiset.count_cons_of_ne (by rintro rfl; exact hnK hx)]
      exact hi.count x hx
  · rcases Finset.mem_insert.1 hx with rfl | hx
    · rw [objo] at hz; simp at hz
    · obtain ⟨w, hw⟩ := hi.zero x hx (by rw [← objK x hx]; exact hz)
      exact ⟨w, by rw [todo]; exact hw⟩
  · rw [todo] at h
    have := hi.reads w x h
    exact ⟨Finset.mem_insert_of_mem this.1, by rw [objK x this.1]; exact this.2⟩
  · rw [todo] at h
    have := hi.rel w x h
    have hne : x ≠ s.next := by omega
    rw [objx x hne]
    exact ⟨by rw [Finset.mem_insert, not_or]; exact ⟨hne, this.1⟩, Nat.lt_succ_of_lt this.2.1, this.2.2.1,
      fun u => le_trans (this.2.2.2 u) (tview w u)⟩
  · have : allClaims s' = allClaims s := by simp only [allClaims, todo]
    rw [this]; exact hi.nodup
  · rw [Finset.mem_insert, not_or] at h2
    rw [objx x h2.1] at h3
    have : x < s.next + 1 := h1
    obtain ⟨w, hw⟩ := hi.gone x (by omega) h2.2 h3
    exact ⟨w, by rw [todo]; exact hw⟩
  · by_cases h : x = s.next
    · rw [h, objo]; simp
    · rw [objx x h]; exact hi.once x
  · have key : ∀ x, .read x ∈ (s.thr w).todo → (s'.objs x).view = (s.objs x).view := fun x hx => by
      rw [objK x (hi.reads w x hx).1]
    by_cases hw : w = v
    · subst hw; exact shape_nil (by rw [todo]; exact ht)
    · rw [thrw w hw]
      rcases hi.shape w with h1 | ⟨x, l, h1, h2, h3⟩ | ⟨x, l, h1, h2, h3⟩
      · exact Or.inl h1
      · exact Or.inr (Or.inl ⟨x, l, h1, h2, by rw [key x (by rw [h1]; simp)]; exact h3⟩)
      · exact Or.inr (Or.inr ⟨x, l, h1, h2, by rw [key x (by rw [h1]; simp)]; exact h3⟩)
  · have hself : s.next ∈ (s'.thr v).held := by rw [thrv]; simp [Thread.held, ht']
    rcases Finset.mem_insert.1 hx with rfl | hx
    · rw [objo]
      by_cases hu : u = v
      · subst hu
        refine .held u hself ?_
        rw [thrv]
        simp only [Function.update_self, ht']
        exact le_of_eq (tick_self _).symm
      · simp only [Function.update_of_ne hu]
        exact .loc (Nat.zero_le _)
    · rw [objK x hx]
      have hxn : ∀ i, Cov s K u ((s.objs x).acc u) i → i ∈ K → Cov s' (insert s.next K) u ((s.objs x).acc u) i := by
        intro i hc
        induction hc with
        | loc h =>
          intro hiK
          exact .loc (by rw [objK _ hiK]; exact h)
        | @held i w h1 h2 =>
          intro hiK
          by_cases hw : w = v
          · subst hw
            have : i ∈ t'.held + ↑ks := by rw [held']; exact Multiset.mem_add.2 (Or.inr h1)
            rcases Multiset.mem_add.1 this with h | h
            · exact .held w (by rw [thrv]; exact h) (le_trans h2 (tview w u))
            · exact .par s.next (by simp) (by rw [objo]; simpa using h) (.held w hself (le_trans h2 (tview w u)))
          · exact .held w (by rw [thrw w hw]; exact h1) (le_trans h2 (tview w u))
        | par p hp hm _ ih =>
          intro _
          exact .par p (Finset.mem_insert_of_mem hp) (by rw [objK p hp]; exact hm) (ih hp)
      exact hxn x (hi.cov x hx u) hx

theorem step_ok {s' : State T} (hi : Inv s K) (h : Step s s') : ∃ K', Inv s' K' := by
  cases h with
  | make h1 h2 => exact ⟨_, make_ok hi h1 h2⟩
  | use h1 h2 => exact ⟨_, use_ok hi h2 h1⟩
  | clone h1 h2 => exact ⟨_, retain_ok hi h2 h1⟩
  | free h1 h2 => exact ⟨_, free_ok hi h1 h2⟩
  | give h1 h2 => exact ⟨_, give_ok hi h2⟩
  | sync => exact ⟨_, sync_ok hi⟩
  | @act v a rest h =>
    cases a with
    | sub o => exact ⟨_, sub_ok hi h⟩
    | fence => exact ⟨_, fence_ok hi h⟩
    | read o => exact ⟨_, read_ok hi h⟩
    | release o => exact ⟨_, release_ok hi h⟩

theorem runs_inv (h : Runs s) : ∃ K, Inv s K := by
  induction h with
  | init => exact ⟨∅, inv_init⟩
  | step _ hs ih => obtain ⟨K, hi⟩ := ih; exact step_ok hi hs

/-! ### A free ends -/

/-- A bound on the steps that an action leads to by itself. -/
def Act.cost : Act → Nat
  | .sub _ => 3
  | _ => 1

/-- A bound on the steps that are left of the frees in progress. -/
def work (s : State T) (K : Finset Nat) : Nat :=
  ∑ v, ((s.thr v).todo.map Act.cost).sum + ∑ p ∈ K, (3 * (s.objs p).kids.length + 2)

theorem act_ok {a : Act} (hi : Inv s K) (ht : (s.thr v).todo = a :: rest) :
    ∃ K', Inv (s.act v rest a) K' ∧ work (s.act v rest a) K' < work s K := by
  have e := sum_update (T := T) (fun t => (t.todo.map Act.cost).sum) s.thr v
  cases a with
  | sub o =>
    refine ⟨K, sub_ok hi ht, ?_⟩
    have hk : ∀ x, ((s.act v rest (.sub o)).objs x).kids = (s.objs x).kids := fun x => by
      simp only [State.act]; rw [access_kids]; exact fun _ => rfl
    have h1 := e ((s.act v rest (.sub o)).thr v)
    have h2 : Function.update s.thr v ((s.act v rest (.sub o)).thr v) = (s.act v rest (.sub o)).thr := by
      simp [State.act, State.access]
    rw [h2, ht] at h1
    have h3 : (((s.act v rest (.sub o)).thr v).todo.map Act.cost).sum ≤ 2 + (rest.map Act.cost).sum := by
      simp only [State.act, State.access, Function.update_self, after]
      split <;> simp [Act.cost] <;> omega
    simp only [work, hk]
    simp only [List.map_cons, List.sum_cons, Act.cost] at h1
    omega
  | fence =>
    refine ⟨K, fence_ok hi ht, ?_⟩
    have h1 := e ((s.act v rest .fence).thr v)
    have h2 : Function.update s.thr v ((s.act v rest .fence).thr v) = (s.act v rest .fence).thr := by
      simp [State.act, State.setThr]
    rw [h2, ht] at h1
    have h3 : ((s.act v rest .fence).thr v).todo = rest := by simp [State.act, State.setThr]
    rw [h3] at h1
    have h4 : (s.act v rest .fence).objs = s.objs := rfl
    simp only [work, h4]
    simp only [List.map_cons, List.sum_cons, Act.cost] at h1
    omega
  | read o =>
    refine ⟨K.erase o, read_ok hi ht, ?_⟩
    have ho : o ∈ K := (hi.reads v o (by rw [ht]; simp)).1
    have hk : ∀ x, ((s.act v rest (.read o)).objs x).kids = (s.objs x).kids := fun x => by
      simp only [State.act]; rw [access_kids]; exact fun _ => rfl
    have h1 := e ((s.act v rest (.read o)).thr v)
    have h2 : Function.update s.thr v ((s.act v rest (.read o)).thr v) = (s.act v rest (.read o)).thr := by
      simp [State.act, State.access]
    rw [h2, ht] at h1
    have h3 : (((s.act v rest (.read o)).thr v).todo.map Act.cost).sum
        = 3 * (s.objs o).kids.length + 1 + (rest.map Act.cost).sum := by
      simp only [State.act, State.access, Function.update_self]
      rw [List.map_append, List.sum_append, List.map_map]
      have : (Act.cost ∘ Act.sub) = fun _ => 3 := rfl
      rw [this, List.map_const', List.sum_replicate_nat]
      simp only [List.map_cons, List.sum_cons, Act.cost]
      omega
    have h5 := Finset.add_sum_erase K (fun p => 3 * (s.objs p).kids.length + 2) ho
    simp only [work, hk]
    simp only [List.map_cons, List.sum_cons, Act.cost] at h1
    omega
  | release o =>
    refine ⟨K, release_ok hi ht, ?_⟩
    have hk : ∀ x, ((s.act v rest (.release o)).objs x).kids = (s.objs x).kids := by
      intro x
      simp only [State.act]
      by_cases h : x = o
      · subst h; rw [Function.update_self]
      · rw [Function.update_of_ne h]
    have h1 := e ((s.act v rest (.release o)).thr v)
    have h2 : Function.update s.thr v ((s.act v rest (.release o)).thr v)
        = (s.act v rest (.release o)).thr := by
      simp [State.act]
    rw [h2, ht] at h1
    have h3 : ((s.act v rest (.release o)).thr v).todo = rest := by simp [State.act]
    rw [h3] at h1
    simp only [work, hk]
    simp only [List.map_cons, List.sum_cons, Act.cost] at h1
    omega

/-- `K` are the objects whose references are still to be dropped. -/
theorem Inv.mem_iff (hi : Inv s K) (p : Nat) :
    p ∈ K ↔ p < s.next ∧ (s.objs p).frees = 0 ∧ ∀ w, .release p ∉ (s.thr w).todo := by
  constructor
  · intro hp
    exact ⟨(hi.inK p hp).1, (hi.inK p hp).2, fun w h => (hi.rel w p h).1 hp⟩
  · rintro ⟨h1, h2, h3⟩
    by_contra hp
    obtain ⟨w, hw⟩ := hi.gone p h1 hp h2
    exact h3 w hw

end steps
end Tg.Thr
