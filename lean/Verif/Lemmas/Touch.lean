import Verif.Lemmas.GeneralRel
import Verif.Spec.Touch
/-! A segment against a ring with no vertex on the segment: it has a point inside if and only if it meets two edges, and what the callback without edges counts. -/
set_option linter.unusedSectionVars false
namespace Tg.S

variable {K : Type*} [Field K] [LinearOrder K] [IsStrictOrderedRing K] [FloorRing K]

/-- Two segments meet in one point at most, if no end of the second is on the first, and one end of the first is not on the second. -/
theorem meet_once {p q : Pt K} {t : Seg K} (hq : ¬ OnSeg t q) (ha : ¬ OnSeg ⟨p, q⟩ t.a) (hb : ¬ OnSeg ⟨p, q⟩ t.b) {u v : Pt K} (u1 : OnSeg ⟨p, q⟩ u)
    (u2 : OnSeg t u) (v1 : OnSeg ⟨p, q⟩ v) (v2 : OnSeg t v) : u = v := by
  by_contra hne
  have ext : ∀ {a b : Pt K}, a.x = b.x → a.y = b.y → a = b := fun {a b} h1 h2 => by cases a; cases b; simp_all
  have key : ∀ {u v : Pt K} {σ τ : K}, 0 ≤ σ → τ ≤ 1 → σ < τ → u.x = p.x + σ * (q.x - p.x) → u.y = p.y + σ * (q.y - p.y) → v.x = p.x + τ * (q.x - p.x) →
      v.y = p.y + τ * (q.y - p.y) → OnSeg t u → OnSeg t v → u ≠ v → False := by
    intro u v σ τ s0 t1 hst ux uy vx vy hu hv huv
    obtain ⟨α, a0, a1, ax, ay⟩ := hu
    obtain ⟨β, b0, b1, bx, by'⟩ := hv
    have hd : 0 < τ - σ := sub_pos.2 hst
    set κ := (1 - τ) / (τ - σ) with hκ
    have k0 : 0 ≤ κ := div_nonneg (by linarith) hd.le
    have hk : κ * (τ - σ) = 1 - τ := by rw [hκ]; field_simp
    have qx : q.x = v.x + κ * (v.x - u.x) := by
      rw [ux, vx]
      linear_combination (q.x - p.x) * -hk
    have qy : q.y = v.y + κ * (v.y - u.y) := by
      rw [uy, vy]
      linear_combination (q.y - p.y) * -hk
    have vq : ∀ {w : Pt K}, OnSeg ⟨v, q⟩ w → OnSeg ⟨p, q⟩ w := fun h =>
      onSeg_mono (t := ⟨v, q⟩) ⟨τ, s0.trans hst.le, t1, vx, vy⟩ (onSeg_right ⟨p, q⟩) h
    have hγ : ∀ {g : K}, g = β + κ * (β - α) → ¬ (0 ≤ g ∧ g ≤ 1) := by
      rintro g rfl ⟨h1, h2⟩
      exact hq ⟨_, h1, h2, by rw [qx, bx, ax]; ring, by rw [qy, by', ay]; ring⟩
    rcases lt_trichotomy α β with h | h | h
    · have hg : 1 < β + κ * (β - α) := by
        by_contra hc
        exact hγ rfl ⟨add_nonneg b0 (mul_nonneg k0 (by linarith)), not_lt.1 hc⟩
      have hgb : 0 < κ * (β - α) := by linarith
      refine hb (vq ⟨(1 - β) / (κ * (β - α)), div_nonneg (by linarith) hgb.le, (div_le_one hgb).2 (by linarith), ?_, ?_⟩)
      · show t.b.x = v.x + _ * (q.x - v.x)
        rw [qx, show v.x + κ * (v.x - u.x) - v.x = κ * (β - α) * (t.b.x - t.a.x) by rw [bx, ax]; ring, ← mul_assoc, div_mul_cancel₀ _ hgb.ne', bx]
        ring
      · show t.b.y = v.y + _ * (q.y - v.y)
        rw [qy, show v.y + κ * (v.y - u.y) - v.y = κ * (β - α) * (t.b.y - t.a.y) by rw [by', ay]; ring, ← mul_assoc, div_mul_cancel₀ _ hgb.ne', by']
        ring
    · subst h
      exact huv (ext (by rw [ax, bx]) (by rw [ay, by']))
    · have hg : β + κ * (β - α) < 0 := by
        by_contra hc
        refine hγ rfl ⟨not_lt.1 hc, ?_⟩
        have : 0 ≤ κ * (α - β) := mul_nonneg k0 (by linarith)
        linarith
      have hgb : κ * (β - α) < 0 := by linarith
      refine ha (vq ⟨-β / (κ * (β - α)), div_nonneg_of_nonpos (by linarith) hgb.le, (div_le_one_of_neg hgb).2 (by linarith), ?_, ?_⟩)
      · show t.a.x = v.x + _ * (q.x - v.x)
        rw [qx, show v.x + κ * (v.x - u.x) - v.x = κ * (β - α) * (t.b.x - t.a.x) by rw [bx, ax]; ring, ← mul_assoc, div_mul_cancel₀ _ hgb.ne, bx]
        ring
      · show t.a.y = v.y + _ * (q.y - v.y)
        rw [qy, show v.y + κ * (v.y - u.y) - v.y = κ * (β - α) * (t.b.y - t.a.y) by rw [by', ay]; ring, ← mul_assoc, div_mul_cancel₀ _ hgb.ne, by']
        ring
  obtain ⟨σ, s0, s1, sx, sy⟩ := u1
  obtain ⟨τ, t0, t1, tx, ty⟩ := v1
  rcases lt_trichotomy σ τ with h | h | h
  · exact key s0 t1 h sx sy tx ty u2 v2 hne
  · subst h
    exact hne (ext (by rw [sx, tx]) (by rw [sy, ty]))
  · exact key t0 s1 h tx ty sx sy v2 u2 (Ne.symm hne)

/-- Two edges meet in vertices only. -/
def Simple (l : List (Pt K)) : Prop :=
  ∀ (i j : Nat) (s t : Seg K), i < j → (edges l)[i]? = some s → (edges l)[j]? = some t → ∀ z, OnSeg s z → OnSeg t z → z ∈ l

open Classical in
/-- With an inner point, and the ends not inside, two edges are met. -/
theorem two_of_inside {l : List (Pt K)} (hl : l.head? = l.getLast?) {p q w : Pt K} (hp : ¬ Inside (edges l) p) (hq : ¬ Inside (edges l) q) (hw : OnSeg ⟨p, q⟩ w)
    (hin : Inside (edges l) w) : 2 ≤ (edges l).countP fun s => Share ⟨p, q⟩ s := by
  have meets : ∀ {a : Pt K}, ¬ Inside (edges l) a → ∃ s ∈ edges l, Share ⟨a, w⟩ s := by
    intro a ha
    by_contra hc
    push Not at hc
    apply ha
    have hb : ¬ OnBoundary (edges l) a := fun ⟨s, hs, h⟩ => hc s hs ⟨a, onSeg_left ⟨a, w⟩, h⟩
    exact ⟨hb, by rw [parity_same hl hc]; exact hin.2⟩
  obtain ⟨s, hs, z, z1, z2⟩ := meets hp
  obtain ⟨t, ht, y, y1, y2⟩ := meets hq
  obtain ⟨i, hi⟩ := List.getElem?_of_mem hs
  obtain ⟨j, hj⟩ := List.getElem?_of_mem ht
  have hps : Share ⟨p, q⟩ s := ⟨z, onSeg_mono (t := ⟨p, w⟩) (onSeg_left ⟨p, q⟩) hw z1, z2⟩
  have hqt : Share ⟨p, q⟩ t := ⟨y, onSeg_mono (t := ⟨q, w⟩) (onSeg_right ⟨p, q⟩) hw y1, y2⟩
  rcases lt_trichotomy i j with h | h | h
  · exact countP_two h hi hj (decide_eq_true hps) (decide_eq_true hqt)
  · exfalso
    subst h
    rw [hi, Option.some.injEq] at hj
    subst hj
    apply hin.1
    refine ⟨s, hs, onSeg_mono (t := ⟨z, y⟩) z2 y2 ?_⟩
    -- `w` is between
    have h1 : OnSeg ⟨z, q⟩ w := by
      have := on_before (onSeg_swap hw) (onSeg_swap z1)
      exact onSeg_swap this
    have h2 := on_before h1 (onSeg_swap y1)
    exact h2
  · exact countP_two h hj hi (decide_eq_true hqt) (decide_eq_true hps)

/-- A count of two has two places. -/
theorem two_of_countP {γ : Type*} {P : γ → Bool} : ∀ {l : List γ}, 2 ≤ l.countP P → ∃ (i j : Nat) (x y : γ), i < j ∧ l[i]? = some x ∧ l[j]? = some y ∧ P x = true ∧ P y = true
  | [], h => by simp at h
  | a :: l, h => by
    by_cases ha : P a = true
    · rw [List.countP_cons_of_pos ha] at h
      obtain ⟨y, hy, hP⟩ := List.countP_pos_iff.1 (show 0 < l.countP P by omega)
      obtain ⟨j, hj⟩ := List.getElem?_of_mem hy
      exact ⟨0, j + 1, a, y, by omega, by simp, by simpa using hj, ha, hP⟩
    · rw [List.countP_cons_of_neg (by simpa using ha)] at h
      obtain ⟨i, j, x, y, hij, hi, hj, hx, hy⟩ := two_of_countP h
      exact ⟨i + 1, j + 1, x, y, by omega, by simpa using hi, by simpa using hj, hx, hy⟩

/-- A stronger test counts less. -/
theorem countP_lt {γ : Type*} {P Q : γ → Bool} : ∀ {l : List γ}, (∀ x ∈ l, P x = true → Q x = true) → (∃ x ∈ l, Q x = true ∧ ¬ P x = true) → l.countP P < l.countP Q
  | [], _, h => by simp at h
  | a :: l, h1, h2 => by
    have hle : l.countP P ≤ l.countP Q := List.countP_mono_left fun x hx => h1 x (List.mem_cons_of_mem _ hx)
    by_cases hP : P a = true
    · rw [List.countP_cons_of_pos hP, List.countP_cons_of_pos (h1 a List.mem_cons_self hP)]
      obtain ⟨x, hx, hq, hp⟩ := h2
      rcases List.mem_cons.1 hx with rfl | hx
      · exact absurd hP hp
      · have := countP_lt (fun y hy => h1 y (List.mem_cons_of_mem _ hy)) ⟨x, hx, hq, hp⟩
        omega
    · rw [List.countP_cons_of_neg hP]
      by_cases hQ : Q a = true
      · rw [List.countP_cons_of_pos hQ]
        omega
      · rw [List.countP_cons_of_neg hQ]
        obtain ⟨x, hx, hq, hp⟩ := h2
        rcases List.mem_cons.1 hx with rfl | hx
        · exact absurd hq hQ
        · exact countP_lt (fun y hy => h1 y (List.mem_cons_of_mem _ hy)) ⟨x, hx, hq, hp⟩

open Classical in
/-- With two edges met, there is an inner point. -/
theorem inside_of_two {l : List (Pt K)} (hl : l.head? = l.getLast?) (h3 : 3 ≤ l.length) (hs : Simple l) {q : Pt K} (hq : ¬ OnBoundary (edges l) q)
    (hqi : ¬ Inside (edges l) q) : ∀ (n : Nat) (p : Pt K), (edges l).countP (fun s => Share ⟨p, q⟩ s) ≤ n → (∀ v ∈ l, ¬ OnSeg ⟨p, q⟩ v) →
      2 ≤ (edges l).countP (fun s => Share ⟨p, q⟩ s) → ∃ w, OnSeg ⟨p, q⟩ w ∧ Inside (edges l) w
  | 0, p, h, _, h2 => by omega
  | n + 1, p, h, hv, h2 => by
    have once : ∀ {t : Seg K}, t ∈ edges l → ∀ {u v : Pt K}, OnSeg ⟨p, q⟩ u → OnSeg t u → OnSeg ⟨p, q⟩ v → OnSeg t v → u = v := fun ht =>
      fun u1 u2 v1 v2 => meet_once (fun h => hq ⟨_, ht, h⟩) (hv _ (edge_ends ht).1) (hv _ (edge_ends ht).2) u1 u2 v1 v2
    have key : ∀ {i j : Nat} {s t : Seg K} {z y : Pt K} {σ τ : K}, i ≠ j → (edges l)[i]? = some s → (edges l)[j]? = some t → OnSeg s z → OnSeg t y →
        0 ≤ σ → τ ≤ 1 → σ < τ → z.x = p.x + σ * (q.x - p.x) → z.y = p.y + σ * (q.y - p.y) → y.x = p.x + τ * (q.x - p.x) → y.y = p.y + τ * (q.y - p.y) → z ≠ y →
        ∃ w, OnSeg ⟨p, q⟩ w ∧ Inside (edges l) w := by
      intro i j s t z y σ τ _ hi hj hz hy s0 t1 hst zx zy yx yy hne
      have ms := List.mem_of_getElem? hi
      have mt := List.mem_of_getElem? hj
      set μ := (σ + τ) / 2 with hμ
      have hσμ : σ < μ := by rw [hμ]; linarith
      have hμτ : μ < τ := by rw [hμ]; linarith
      let m : Pt K := ⟨p.x + μ * (q.x - p.x), p.y + μ * (q.y - p.y)⟩
      have hz' : OnSeg ⟨p, q⟩ z := ⟨σ, s0, by linarith, zx, zy⟩
      have hy' : OnSeg ⟨p, q⟩ y := ⟨τ, by linarith, t1, yx, yy⟩
      have hm : OnSeg ⟨p, q⟩ m := ⟨μ, by linarith, by linarith, rfl, rfl⟩
      have sub : ∀ {w : Pt K}, OnSeg ⟨m, q⟩ w → OnSeg ⟨p, q⟩ w := fun hw => onSeg_mono (t := ⟨m, q⟩) hm (onSeg_right ⟨p, q⟩) hw
      have hpq : ¬ (q.x - p.x = 0 ∧ q.y - p.y = 0) := by
        rintro ⟨h1, h2⟩
        rw [h1, mul_zero] at zx yx
        rw [h2, mul_zero] at zy yy
        apply hne
        cases z; cases y; simp_all
      have param : ∀ {a b : K}, p.x + a * (q.x - p.x) = p.x + b * (q.x - p.x) → p.y + a * (q.y - p.y) = p.y + b * (q.y - p.y) → a = b := by
        intro a b h1 h2
        by_contra hab
        have hab' := sub_ne_zero.2 hab
        refine hpq ⟨(mul_eq_zero.1 (show (a - b) * (q.x - p.x) = 0 by linear_combination h1)).resolve_left hab',
          (mul_eq_zero.1 (show (a - b) * (q.y - p.y) = 0 by linear_combination h2)).resolve_left hab'⟩
      have hzm : ¬ OnSeg ⟨m, q⟩ z := by
        rintro ⟨r, r0, r1, rx, ry⟩
        simp only [m] at rx ry
        have e := param (a := σ) (b := μ + r * (1 - μ)) (by rw [← zx, rx]; ring) (by rw [← zy, ry]; ring)
        have := mul_nonneg r0 (show (0 : K) ≤ 1 - μ by linarith)
        linarith
      have hym : OnSeg ⟨m, q⟩ y := by
        have h1 : 0 < 1 - μ := by linarith
        refine ⟨(τ - μ) / (1 - μ), div_nonneg (by linarith) h1.le, (div_le_one h1).2 (by linarith), ?_, ?_⟩
        · simp only [m]
          rw [yx]
          field_simp
          ring
        · simp only [m]
          rw [yy]
          field_simp
          ring
      have hmy : m ≠ y := by
        rintro e
        have := param (a := μ) (b := τ) (by rw [← yx, ← e]) (by rw [← yy, ← e])
        linarith
      have hlt : (edges l).countP (fun s => Share ⟨m, q⟩ s) < (edges l).countP (fun s => Share ⟨p, q⟩ s) := by
        refine countP_lt (fun x _ hx => ?_) ⟨s, ms, decide_eq_true ⟨z, hz', hz⟩, fun hx => ?_⟩
        · obtain ⟨w, w1, w2⟩ := of_decide_eq_true hx
          exact decide_eq_true ⟨w, sub w1, w2⟩
        · obtain ⟨w, w1, w2⟩ := of_decide_eq_true hx
          exact hzm (once ms hz' hz (sub w1) w2 ▸ w1)
      have hvm : ∀ v ∈ l, ¬ OnSeg ⟨m, q⟩ v := fun v hvl hh => hv v hvl (sub hh)
      have finish : 2 ≤ (edges l).countP (fun s => Share ⟨m, q⟩ s) → ∃ w, OnSeg ⟨p, q⟩ w ∧ Inside (edges l) w := fun h2 => by
        obtain ⟨w, w1, w2⟩ := inside_of_two hl h3 hs hq hqi n m (by omega) hvm h2
        exact ⟨w, sub w1, w2⟩
      by_cases hmb : OnBoundary (edges l) m
      · obtain ⟨r, hr, hrm⟩ := hmb
        obtain ⟨k, hk⟩ := List.getElem?_of_mem hr
        have dr : decide (Share ⟨m, q⟩ r) = true := decide_eq_true ⟨m, onSeg_left ⟨m, q⟩, hrm⟩
        have dt : decide (Share ⟨m, q⟩ t) = true := decide_eq_true ⟨y, hym, hy⟩
        apply finish
        rcases lt_trichotomy k j with h | h | h
        · exact countP_two h hk hj dr dt
        · subst h
          rw [hk, Option.some.injEq] at hj
          subst hj
          exact absurd (once hr hm hrm hy' hy) hmy
        · exact countP_two h hj hk dt dr
      · have h1 : 0 < (edges l).countP (fun s => Share ⟨m, q⟩ s) := List.countP_pos_iff.2 ⟨t, mt, decide_eq_true ⟨y, hym, hy⟩⟩
        by_cases h2 : 2 ≤ (edges l).countP (fun s => Share ⟨m, q⟩ s)
        · exact finish h2
        · have := parity_differs hl h3 hmb hq (by omega)
          have hq0 : ncross (edges l) q % 2 ≠ 1 := fun h => hqi ⟨hq, h⟩
          exact ⟨m, hm, hmb, by omega⟩
    obtain ⟨i, j, s, t, hij, hi, hj, hS, hT⟩ := two_of_countP h2
    obtain ⟨z, z1, z2⟩ := of_decide_eq_true hS
    obtain ⟨y, y1, y2⟩ := of_decide_eq_true hT
    have hne : z ≠ y := fun e => hv z (hs i j s t hij hi hj z z2 (e ▸ y2)) z1
    obtain ⟨σ, s0, s1, sx, sy⟩ := z1
    obtain ⟨τ, t0, t1, tx, ty⟩ := y1
    rcases lt_trichotomy σ τ with h | h | h
    · exact key hij.ne hi hj z2 y2 s0 t1 h sx sy tx ty hne
    · subst h
      exact absurd (by cases z; cases y; simp_all) hne
    · exact key hij.ne' hj hi y2 z2 t0 s1 h tx ty sx sy hne.symm

/-! ### The callback without edges -/

variable {ε : K} {ns : List (Pt K) → Nat}

/-- Without an end of the edge on the segment, and with one end of the segment not on the edge, the callback counts as it does with edges. -/
theorem interIter_eq' {seg t : Seg K} (h : ¬ OnSeg t seg.a ∨ ¬ OnSeg t seg.b) (h3 : ¬ OnSeg seg t.a) (h4 : ¬ OnSeg seg t.b) (i : Nat) (st : InterSt) :
    interIter (exact ε ns) seg false t i st = interIter (exact ε ns) seg true t i st := by
  unfold interIter
  by_cases hx : segIntersects (exact ε ns) seg t = true
  · have hsh := (C27_intersects seg t).1 hx
    have hne : seg.a ≠ seg.b := by
      intro he
      obtain ⟨w, w1, w2⟩ := hsh
      obtain ⟨sa, sb⟩ := seg
      simp only at he
      subst he
      rw [onSeg_same w1] at w2
      exact h.elim (· w2) (· w2)
    have hcol : (collinear (exact ε ns) seg.a seg.b t.a && collinear (exact ε ns) seg.a seg.b t.b) = false := by
      rw [Bool.eq_false_iff, ne_eq, Bool.and_eq_true, exact_collinear, exact_collinear, exactCollinear_iff hne, exactCollinear_iff hne]
      rcases h with h1 | h2
      · exact share_cross hsh h1 h3 h4
      · rintro ⟨c1, c2⟩
        have := share_cross (s := ⟨seg.b, seg.a⟩) (t := t) (share_rev.1 hsh) h2 (fun h => h3 (onSeg_swap h)) (fun h => h4 (onSeg_swap h))
        simp only at this
        apply this
        constructor
        · linear_combination -c1
        · linear_combination -c2
    have pa : (pteq seg.a t.a || pteq seg.a t.b) = false := by
      rw [Bool.eq_false_iff, ne_eq, Bool.or_eq_true, pteq_iff, pteq_iff]
      rintro (h | h)
      · exact h3 (h ▸ onSeg_left seg)
      · exact h4 (h ▸ onSeg_left seg)
    have pb : (pteq seg.b t.a || pteq seg.b t.b) = false := by
      rw [Bool.eq_false_iff, ne_eq, Bool.or_eq_true, pteq_iff, pteq_iff]
      rintro (h | h)
      · exact h3 (h ▸ onSeg_right seg)
      · exact h4 (h ▸ onSeg_right seg)
    simp only [hx, hcol, pa, pb, Bool.not_true, Bool.false_eq_true, if_false, if_true, Bool.and_false]
  · simp only [Bool.not_eq_true] at hx
    simp only [hx, Bool.not_false, if_true]

/-- The count without edges grows at an edge that is met. -/
theorem visit_met {A : Arith K} {seg : Seg K} : ∀ (l : List (Seg K × Nat)) (st : InterSt), st.count < 2 →
    2 ≤ (visit (fun x : Seg K × Nat => interIter A seg false x.1 x.2) l st).count → ∃ x ∈ l, segIntersects A seg x.1 = true
  | [], st, h, h2 => by simp [visit] at h2; omega
  | x :: l, st, h, h2 => by
    by_cases hx : segIntersects A seg x.1 = true
    · exact ⟨x, List.mem_cons_self, hx⟩
    · simp only [Bool.not_eq_true] at hx
      rw [visit] at h2
      simp only [interIter, hx, Bool.not_false, if_true] at h2
      obtain ⟨y, hy, hy2⟩ := visit_met l st h h2
      exact ⟨y, List.mem_cons_of_mem _ hy, hy2⟩

section
variable {s : Series K} {r : Ring K K} (hse : s.e.Ok) (hr : newIx Ix.exact (exact ε ns) s.e s.pts true s.ix = some r)
include hse hr

/-- What the test of a segment without edges always tells. -/
theorem ringXSeg_false {ps : List (Pt K)} (h3 : 3 ≤ s.pts.length) (hp : Sees ε ns s r ps) {seg : Seg K} (ha : seg.a ∈ ps) (hb : seg.b ∈ ps) :
    ∃ b, ringXSeg Ix.exact (exact ε ns) r seg false = some b ∧ (Inside s.segs seg.a → b = true) ∧ (Inside s.segs seg.b → b = true) ∧
      (b = true → ∃ w, OnSeg seg w ∧ InRegion s.segs w) := by
  classical
  obtain ⟨l, hl, hcl, hl3, hmem⟩ := ring_chain h3
  obtain ⟨a1, -⟩ := newIx_some Ix.exact_lawful hse hr
  have hrect : ∀ v ∈ l, r.rect.Has v := fun v hv => a1.rect_has (by omega) v ((hmem v).1 hv)
  have hrv : r.rect.Valid := by
    obtain ⟨q, hq⟩ : ∃ q, q ∈ s.pts := List.exists_mem_of_length_pos (by omega)
    have := a1.rect_has (by omega) q hq
    exact ⟨this.1.trans this.2.1, this.2.2.1.trans this.2.2.2⟩
  obtain ⟨b1, i1, e1, f1, -⟩ := hp.pip _ ha false
  obtain ⟨b2, i2, e2, f2, -⟩ := hp.pip _ hb false
  rw [if_neg (by simp)] at f1 f2
  unfold ringXSeg
  by_cases h1 : seg.rect.intersects r.rect = true
  · rw [h1, e1]
    simp only [Bool.not_true, Bool.false_eq_true, if_false]
    by_cases c1 : b1 = true
    · rw [if_pos c1]
      exact ⟨true, rfl, fun _ => rfl, fun _ => rfl, fun _ => ⟨seg.a, onSeg_left seg, .inr (f1.1 c1)⟩⟩
    rw [if_neg c1, e2]
    dsimp only
    by_cases c2 : b2 = true
    · rw [if_pos c2]
      exact ⟨true, rfl, fun _ => rfl, fun _ => rfl, fun _ => ⟨seg.b, onSeg_right seg, .inr (f2.1 c2)⟩⟩
    rw [if_neg c2]
    have hs := C22_search_partial Ix.exact_lawful hse hr hp.search seg.rect seg.rect_valid (interIter (exact ε ns) seg false) ⟨0, false, false⟩
    obtain ⟨x, hx1, hx2⟩ := Option.map_eq_some_iff.1 hs
    rw [hx1]
    refine ⟨_, rfl, fun h => absurd (f1.2 h) c1, fun h => absurd (f2.2 h) c2, fun h => ?_⟩
    rw [decide_eq_true_eq, hx2] at h
    obtain ⟨y, hy, hy2⟩ := visit_met _ _ (by simp) h
    obtain ⟨w, w1, w2⟩ := (C27_intersects seg y.1).1 hy2
    exact ⟨w, w1, .inl ⟨y.1, List.fst_mem_of_mem_zipIdx (List.mem_filter.1 hy).1, w2⟩⟩
  · have h1' : seg.rect.intersects r.rect = false := by simpa using h1
    rw [h1']
    have off : ∀ w, OnSeg seg w → ¬ Inside s.segs w := fun w w1 w2 => h1 ((C20_intersects _ _ seg.rect_valid hrv).2 ⟨w, onSeg_rect w1,
      region_rect hcl hrect (.inr (by rw [← hl]; exact w2))⟩)
    exact ⟨false, rfl, fun h => absurd h (off _ (onSeg_left seg)), fun h => absurd h (off _ (onSeg_right seg)), fun h => by simp at h⟩

/-- With no vertex of a simple ring on the segment, and not both ends on the boundary, the test without edges is exact. -/
theorem ringXSeg_inner {ps : List (Pt K)} (h3 : 3 ≤ s.pts.length) (hp : Sees ε ns s r ps) (hsim : SimpleRing s.pts) {seg : Seg K} (ha : seg.a ∈ ps) (hb : seg.b ∈ ps)
    (hv : ∀ v ∈ s.pts, ¬ OnSeg seg v) (hab : ¬ (OnBoundary s.segs seg.a ∧ OnBoundary s.segs seg.b)) :
    ∃ b, ringXSeg Ix.exact (exact ε ns) r seg false = some b ∧ (b = true ↔ ∃ w, OnSeg seg w ∧ Inside s.segs w) := by
  classical
  obtain ⟨l, hl, hcl, hl3, hmem⟩ := ring_chain h3
  obtain ⟨a1, -⟩ := newIx_some Ix.exact_lawful hse hr
  have hrect : ∀ v ∈ l, r.rect.Has v := fun v hv => a1.rect_has (by omega) v ((hmem v).1 hv)
  have hrv : r.rect.Valid := by
    obtain ⟨q, hq⟩ : ∃ q, q ∈ s.pts := List.exists_mem_of_length_pos (by omega)
    have := a1.rect_has (by omega) q hq
    exact ⟨this.1.trans this.2.1, this.2.2.1.trans this.2.2.2⟩
  obtain ⟨b1, i1, e1, f1, -⟩ := hp.pip _ ha false
  obtain ⟨b2, i2, e2, f2, -⟩ := hp.pip _ hb false
  rw [if_neg (by simp)] at f1 f2
  unfold ringXSeg
  by_cases h1 : seg.rect.intersects r.rect = true
  · rw [h1, e1]
    simp only [Bool.not_true, Bool.false_eq_true, if_false]
    by_cases c1 : b1 = true
    · rw [if_pos c1]
      exact ⟨true, rfl, iff_of_true rfl ⟨seg.a, onSeg_left seg, f1.1 c1⟩⟩
    rw [if_neg c1, e2]
    dsimp only
    by_cases c2 : b2 = true
    · rw [if_pos c2]
      exact ⟨true, rfl, iff_of_true rfl ⟨seg.b, onSeg_right seg, f2.1 c2⟩⟩
    rw [if_neg c2]
    have hs := C22_search_partial Ix.exact_lawful hse hr hp.search seg.rect seg.rect_valid (interIter (exact ε ns) seg false) ⟨0, false, false⟩
    obtain ⟨x, hx1, hx2⟩ := Option.map_eq_some_iff.1 hs
    rw [hx1]
    refine ⟨_, rfl, ?_⟩
    have hv' : ∀ t ∈ s.segs, ¬ OnSeg seg t.a ∧ ¬ OnSeg seg t.b := fun t ht => by
      have he := edge_ends (l := l) (s := t) (by rw [← hl]; exact ht)
      exact ⟨hv _ ((hmem _).1 he.1), hv _ ((hmem _).1 he.2)⟩
    have hone : ∀ t ∈ s.segs, ¬ OnSeg t seg.a ∨ ¬ OnSeg t seg.b := fun t ht => by
      by_contra hc
      push Not at hc
      exact hab ⟨⟨t, ht, hc.1⟩, ⟨t, ht, hc.2⟩⟩
    have hvis := visit_congr (f := fun x : Seg K × Nat => interIter (exact ε ns) seg false x.1 x.2) (g := fun x => interIter (exact ε ns) seg true x.1 x.2)
      (l := (segments s.pts true).zipIdx.filter fun x => Meets seg.rect x.1) (fun x hx st => by
        have hm : x.1 ∈ s.segs := List.fst_mem_of_mem_zipIdx (List.mem_filter.1 hx).1
        exact interIter_eq' (hone _ hm) (hv' _ hm).1 (hv' _ hm).2 x.2 st) ⟨0, false, false⟩
    rw [decide_eq_true_eq, hx2, hvis, visit_count _ _ (by simp)]
    have hcount : (((segments s.pts true).zipIdx.filter fun x => decide (Meets seg.rect x.1)).countP fun x => segIntersects (exact ε ns) seg x.1) =
        (edges l).countP fun s => decide (Share seg s) := by
      rw [List.countP_filter]
      have : edges l = (segments s.pts true).zipIdx.map Prod.fst := by rw [List.zipIdx_map_fst, hl]
      conv_rhs => rw [this, List.countP_map]
      refine List.countP_congr fun x _ => ?_
      simp only [Bool.and_eq_true, Function.comp_apply, decide_eq_true_eq]
      rw [C27_intersects]
      exact ⟨fun h => h.1, fun h => ⟨h, share_meets h⟩⟩
    rw [hcount]
    have hsl : Simple l := fun i j s t hij hi hj z hz1 hz2 => (hmem z).2 (hsim i j s t hij (by rw [hl]; exact hi) (by rw [hl]; exact hj) z hz1 hz2)
    have hsegs : s.segs = edges l := hl
    rw [hsegs] at f1 f2 hab ⊢
    have k1 : ¬ Inside (edges l) seg.a := fun h => c1 (f1.2 h)
    have k2 : ¬ Inside (edges l) seg.b := fun h => c2 (f2.2 h)
    show 2 ≤ min 2 (0 + _) ↔ _
    rw [Nat.zero_add, le_min_iff]
    constructor
    · rintro ⟨-, h⟩
      by_cases hbb : OnBoundary (edges l) seg.b
      · have hba : ¬ OnBoundary (edges l) seg.a := fun h => hab ⟨h, hbb⟩
        have hrev : (edges l).countP (fun s => Share ⟨seg.b, seg.a⟩ s) = (edges l).countP (fun s => Share seg s) :=
          List.countP_congr fun x _ => by
            simp only [decide_eq_true_eq]
            exact share_rev
        obtain ⟨w, w1, w2⟩ := inside_of_two hcl hl3 hsl hba k1 _ seg.b le_rfl (fun v hvl hh => hv v ((hmem v).1 hvl) (onSeg_swap hh)) (by rw [hrev]; exact h)
        exact ⟨w, onSeg_swap w1, w2⟩
      · exact inside_of_two hcl hl3 hsl hbb k2 _ seg.a le_rfl (fun v hvl hh => hv v ((hmem v).1 hvl) hh) h
    · rintro ⟨w, w1, w2⟩
      exact ⟨le_rfl, two_of_inside hcl k1 k2 w1 w2⟩
  · have h1' : seg.rect.intersects r.rect = false := by simpa using h1
    rw [h1']
    refine ⟨false, rfl, iff_of_false (by simp) ?_⟩
    rintro ⟨w, w1, w2⟩
    exact h1 ((C20_intersects _ _ seg.rect_valid hrv).2 ⟨w, onSeg_rect w1, region_rect hcl hrect (.inr (by rw [← hl]; exact w2))⟩)

end

/-! ### Lines and polygons -/

theorem vertex_end : ∀ {l : List (Pt K)}, 2 ≤ l.length → ∀ p ∈ l, ∃ t ∈ edges l, p = t.a ∨ p = t.b
  | [], h, _, _ => by simp at h
  | [_], h, _, _ => by simp at h
  | [a, b], _, p, hp => ⟨⟨a, b⟩, by simp [edges], by simpa using hp⟩
  | a :: b :: c :: l, _, p, hp => by
    have hsub : ∀ t ∈ edges (b :: c :: l), t ∈ edges (a :: b :: c :: l) := fun t ht => by
      rw [show edges (a :: b :: c :: l) = ⟨a, b⟩ :: edges (b :: c :: l) from rfl]
      exact List.mem_cons_of_mem _ ht
    rcases List.mem_cons.1 hp with rfl | hp
    · exact ⟨⟨p, b⟩, by rw [show edges (p :: b :: c :: l) = ⟨p, b⟩ :: edges (b :: c :: l) from rfl]; exact List.mem_cons_self, .inl rfl⟩
    · obtain ⟨t, ht, h⟩ := vertex_end (by simp) p hp
      exact ⟨t, hsub t ht, h⟩

theorem vertex_end' {pts : List (Pt K)} (h3 : 3 ≤ pts.length) : ∀ p ∈ pts, ∃ t ∈ segments pts true, p = t.a ∨ p = t.b := by
  obtain ⟨l, hl, -, hl3, hmem⟩ := ring_chain h3
  intro p hp
  rw [hl]
  exact vertex_end (by omega) p ((hmem p).2 hp)

theorem anyOf_iff {γ : Type*} {t : γ → Option Bool} {Q : γ → Prop} : ∀ {l : List γ}, (∀ x ∈ l, ∃ b, t x = some b ∧ (b = true ↔ Q x)) →
    ∃ b, anyOf t l = some b ∧ (b = true ↔ ∃ x ∈ l, Q x)
  | [], _ => ⟨false, rfl, by simp⟩
  | x :: l, h => by
    obtain ⟨b, h1, h2⟩ := h x (by simp)
    rw [anyOf, h1]
    cases b with
    | true => exact ⟨true, rfl, iff_of_true rfl ⟨x, by simp, h2.1 rfl⟩⟩
    | false =>
      obtain ⟨c, g1, g2⟩ := anyOf_iff (l := l) fun y hy => h y (by simp [hy])
      refine ⟨c, g1, ?_⟩
      rw [g2]
      constructor
      · rintro ⟨y, hy, q⟩; exact ⟨y, by simp [hy], q⟩
      · rintro ⟨y, hy, q⟩
        rcases List.mem_cons.1 hy with rfl | hy
        · exact absurd (h2.2 q) (by simp)
        · exact ⟨y, hy, q⟩

theorem allSeg_true {points : List (Pt K)} {P : Seg K → Option Bool} : ∀ {is : List Nat} {ss : List (Seg K)}, is.map (segAt points) = ss.map some →
    allSeg points P is = some true → ∀ s ∈ ss, P s = some true
  | [], ss, h, _ => by
    cases ss with
    | nil => simp
    | cons => simp at h
  | i :: is, [], h, _ => by simp
  | i :: is, s :: ss, h, ht => by
    simp only [List.map_cons, List.cons.injEq] at h
    rw [allSeg, h.1] at ht
    dsimp only at ht
    cases hP : P s with
    | none => rw [hP] at ht; simp at ht
    | some b =>
      rw [hP] at ht
      cases b with
      | false => simp at ht
      | true =>
        intro x hx
        rcases List.mem_cons.1 hx with rfl | hx
        · exact hP
        · exact allSeg_true h.2 ht x hx

/-- With the answer true, both ends are in the region. -/
theorem ringHasSeg_ends {s : Series K} {r : Ring K K} {ps : List (Pt K)} (hp : Sees ε ns s r ps) {seg : Seg K} (ha : seg.a ∈ ps) (hb : seg.b ∈ ps) {R : RArith K}
    {cv cw : Bool} (h : ringHasSeg Ix.exact (exact ε ns) R cv cw r seg true = some true) : InRegion s.segs seg.a ∧ InRegion s.segs seg.b := by
  obtain ⟨b1, i1, e1, f1, -⟩ := hp.pip _ ha true
  obtain ⟨b2, i2, e2, f2, -⟩ := hp.pip _ hb true
  rw [if_pos rfl] at f1 f2
  unfold ringHasSeg at h
  by_cases hc : (!r.rect.covers seg.rect) = true
  · rw [if_pos hc] at h
    simp at h
  rw [if_neg hc, e1] at h
  dsimp only at h
  cases b1 with
  | false => simp at h
  | true =>
    simp only [Bool.not_true, Bool.false_eq_true, if_false] at h
    by_cases heq : pteq seg.b seg.a = true
    · rw [pteq_iff] at heq
      rw [heq]
      exact ⟨f1.1 rfl, f1.1 rfl⟩
    · rw [if_neg heq, e2] at h
      dsimp only at h
      cases b2 with
      | false => simp at h
      | true => exact ⟨f1.1 rfl, f2.1 rfl⟩

theorem hasLine_ends {s : Series K} {r : FRing K K} {e : Env} (he : e.Ok) {qts : List (Pt K)} {ix : BitVec 32} {o : Ring K K}
    (ho : newIx Ix.exact (exact ε ns) e qts false ix = some o) (h2 : 2 ≤ qts.length) (hp : Sees ε ns s r.ring qts) {P : Par K K} (hPf : P.f = Ix.exact)
    (hPA : P.A = exact ε ns) (h : hasLine P r o true false = some true) : ∀ p ∈ qts, InRegion s.segs p := by
  obtain ⟨b1, -⟩ := newIx_some Ix.exact_lawful he ho
  unfold hasLine ringHasLine at h
  rw [hPf, hPA] at h
  split_ifs at h with c1 c2 c3
  · simp at h
  · simp at h
  · simp at c3
  · have hall := allSeg_true (segAt_range b1) h
    intro p hp'
    obtain ⟨t, ht, hpt⟩ := vertex_end h2 p hp'
    have ht' : t ∈ segments qts false := by simpa [segments] using ht
    have := ringHasSeg_ends hp (seg_mem_pts ht').1 (seg_mem_pts ht').2 (hall t ht')
    rcases hpt with rfl | rfl
    · exact this.1
    · exact this.2

theorem inHole_true {t ans : FRing K K → Option Bool} {rest : Option Bool} {R : Series K → FRing K K → Prop} : ∀ {ss : List (Series K)} {l : List (FRing K K)},
    List.Forall₂ R ss l → inHole t ans rest l = some true → (∃ s ∈ ss, ∃ x, R s x ∧ t x = some true ∧ ans x = some true) ∨ rest = some true
  | [], [], _, h => .inr h
  | s :: ss, x :: l, .cons hx hl, h => by
    rw [inHole] at h
    cases ht : t x with
    | none => rw [ht] at h; simp at h
    | some b =>
      rw [ht] at h
      cases b with
      | true => exact .inl ⟨s, by simp, x, hx, ht, h⟩
      | false =>
        rcases inHole_true hl h with ⟨s', h1, h2⟩ | h
        · exact .inl ⟨s', by simp [h1], h2⟩
        · exact .inr h

theorem andM_true {x y : Option Bool} (h : andM x y = some true) : x = some true ∧ y = some true := by
  cases x with
  | none => simp [andM] at h
  | some b => cases b <;> simp_all [andM]

theorem notM_true {x : Option Bool} (h : notM x = some true) : x = some false := by
  cases x with
  | none => simp [notM] at h
  | some b => cases b <;> simp_all [notM]

theorem has_between {R : Rect K} {t : Seg K} (ha : R.Has t.a) (hb : R.Has t.b) {w : Pt K} (h : OnSeg t w) : R.Has w := by
  obtain ⟨c, c0, c1, cx, cy⟩ := h
  obtain ⟨a1, a2, a3, a4⟩ := ha
  obtain ⟨b1, b2, b3, b4⟩ := hb
  have mix : ∀ u v : K, u + c * (v - u) = (1 - c) * u + c * v := fun u v => by ring
  have c1' : 0 ≤ 1 - c := by linarith
  refine ⟨?_, ?_, ?_, ?_⟩
  · rw [cx, mix]; nlinarith [mul_le_mul_of_nonneg_left a1 c1', mul_le_mul_of_nonneg_left b1 c0]
  · rw [cx, mix]; nlinarith [mul_le_mul_of_nonneg_left a2 c1', mul_le_mul_of_nonneg_left b2 c0]
  · rw [cy, mix]; nlinarith [mul_le_mul_of_nonneg_left a3 c1', mul_le_mul_of_nonneg_left b3 c0]
  · rw [cy, mix]; nlinarith [mul_le_mul_of_nonneg_left a4 c1', mul_le_mul_of_nonneg_left b4 c0]

section
variable {P : Par K K} (hPf : P.f = Ix.exact) (hPA : P.A = exact ε ns)
include hPf hPA

theorem anyOn_iff {t : Series K} {x : FRing K K} (hx : FOk ε ns t x) (hs : SearchOk t.e t.pts t.ix x.ring) {pts : List (Pt K)} {closed : Bool} {sp : Nat}
    {o : Ring K K} (b1 : RingOk Ix.exact pts closed sp o) :
    ∃ b, anyOf (fun p => lineCoversPt P.f P.A x.ring p) (ptsOf o) = some b ∧ (b = true ↔ ∃ p ∈ pts, OnBoundary t.segs p) := by
  rw [ptsOf_eq b1, hPf, hPA]
  exact anyOf_iff fun p _ => ring_covers_pt hx.ok hx.made hs p

/-- What an answer true for a line and a polygon tells. -/
theorem polyTouchesLine_sound {ext : Series K} {holes : List (Series K)} {q : PolyS K K} (hq : PolyIs ε ns ext holes q) {s : Series K} (hse : s.e.Ok)
    {o : Ring K K} (ho : newIx Ix.exact (exact ε ns) s.e s.pts false s.ix = some o) (h2 : 2 ≤ s.pts.length) (hs : RingsSee ε ns (ext :: holes) s.pts)
    (h : polyTouchesLine P q o = some true) :
    (∃ p ∈ s.pts, ∃ t ∈ ext :: holes, OnBoundary t.segs p) ∧ ∀ p ∈ s.pts, ¬ (Inside ext.segs p ∧ ∀ h ∈ holes, ¬ InRegion h.segs p) := by
  obtain ⟨b1, -⟩ := newIx_some Ix.exact_lawful hse ho
  have segEq : segments s.pts false = edges s.pts := by simp [segments]
  rw [polyTouchesLine] at h
  split_ifs at h with hc
  · simp at h
  rcases inHole_true hq.holes h with ⟨t, ht, x, hx, t1, t2⟩ | h
  · have see := hs t (by simp [ht]) _ hx.made
    obtain ⟨b, k1, k2⟩ := anyOn_iff hPf hPA hx see.search b1
    rw [k1, Option.some.injEq] at t2
    obtain ⟨p, hp, hb⟩ := k2.1 t2
    exact ⟨⟨p, hp, t, by simp [ht], hb⟩, fun p hp hin => hin.2 t ht (hasLine_ends hse ho h2 see hPf hPA t1 p hp)⟩
  · obtain ⟨t1, t2⟩ := andM_true h
    have see := hs ext (by simp) _ hq.ext.made
    obtain ⟨b, k1, k2⟩ := anyOn_iff hPf hPA hq.ext see.search b1
    rw [k1, Option.some.injEq] at t1
    obtain ⟨p, hp, hb⟩ := k2.1 t1
    have h3 : 3 ≤ ext.pts.length := by
      by_contra hc
      obtain ⟨t, ht, -⟩ := hb
      rw [Series.segs, segments_short (by omega)] at ht
      simp at ht
    refine ⟨⟨p, hp, ext, by simp, hb⟩, fun p hp hin => ?_⟩
    have t2 := notM_true t2
    obtain ⟨t, ht, hpt⟩ := vertex_end h2 p hp
    have ht' : t ∈ segments s.pts false := by rw [segEq]; exact ht
    have each : ∀ u ∈ segments s.pts false, ∃ b, ringXSeg P.f P.A q.ext.ring u false = some b := fun u hu => by
      rw [hPf, hPA]
      obtain ⟨b, g1, -⟩ := ringXSeg_false hq.ext.ok hq.ext.made h3 see (seg_mem_pts hu).1 (seg_mem_pts hu).2
      exact ⟨b, g1⟩
    obtain ⟨c, g1, g2⟩ := anySeg_some (segAt_range b1) each
    rw [t2, Option.some.injEq] at g1
    subst g1
    obtain ⟨b, f1, f2, f3, -⟩ := ringXSeg_false hq.ext.ok hq.ext.made h3 see (seg_mem_pts ht').1 (seg_mem_pts ht').2
    have hbt : b = true := by
      rcases hpt with e | e
      · exact f2 (e ▸ hin.1)
      · exact f3 (e ▸ hin.1)
    subst hbt
    rw [hPf, hPA] at g2
    exact absurd (g2.2 ⟨t, ht', f1⟩) (by simp)

open Classical in
/-- Against a simple polygon without holes, with none of its vertices on the line, and no segment of the line with both ends on the boundary: the answer
is exact. -/
theorem polyTouchesLine_exact {ext : Series K} {q : PolyS K K} (hq : PolyIs ε ns ext [] q) (h3 : 3 ≤ ext.pts.length) (hsim : SimpleRing ext.pts)
    {s : Series K} (hse : s.e.Ok) {o : Ring K K} (ho : newIx Ix.exact (exact ε ns) s.e s.pts false s.ix = some o) (h2 : 2 ≤ s.pts.length)
    (hs : RingsSee ε ns [ext] s.pts) (hv : ∀ v ∈ ext.pts, ¬ OnBoundary (edges s.pts) v)
    (hab : ∀ t ∈ edges s.pts, ¬ (OnBoundary ext.segs t.a ∧ OnBoundary ext.segs t.b)) :
    ∃ b, polyTouchesLine P q o = some b ∧ (b = true ↔ (∃ w, OnBoundary (edges s.pts) w ∧ InRegion ext.segs w) ∧
      ∀ w, OnBoundary (edges s.pts) w → ¬ Inside ext.segs w) := by
  obtain ⟨b1, -⟩ := newIx_some Ix.exact_lawful hse ho
  obtain ⟨a1, -⟩ := newIx_some Ix.exact_lawful hq.ext.ok hq.ext.made
  obtain ⟨l, hl, hcl, hl3, hmem⟩ := ring_chain h3
  have segEq : segments s.pts false = edges s.pts := by simp [segments]
  have see := hs ext (by simp) _ hq.ext.made
  have hholes : q.holes = [] := by
    have := hq.holes
    cases hh : q.holes with
    | nil => rfl
    | cons x xs => rw [hh] at this; cases this
  have hrect : ∀ v ∈ l, q.ext.ring.rect.Has v := fun v hv => a1.rect_has (by omega) v ((hmem v).1 hv)
  have valid : ∀ {pts : List (Pt K)} {R : Rect K}, 0 < pts.length → (∀ p ∈ pts, R.Has p) → R.Valid := fun {pts R} h0 hR => by
    obtain ⟨p, hp⟩ := List.exists_mem_of_length_pos h0
    have := hR p hp
    exact ⟨this.1.trans this.2.1, this.2.2.1.trans this.2.2.2⟩
  have hline : ∀ p ∈ s.pts, o.rect.Has p := b1.rect_has (by omega)
  have hring : ∀ p ∈ ext.pts, q.ext.ring.rect.Has p := a1.rect_has (by omega)
  rw [polyTouchesLine, hholes, inHole]
  by_cases hc : (polyRect q).intersects o.rect = true
  · rw [hc]
    simp only [Bool.not_true, Bool.false_eq_true, if_false]
    obtain ⟨c, k1, k2⟩ := anyOn_iff hPf hPA hq.ext see.search b1
    have inner : ∀ u ∈ segments s.pts false, ∃ b, ringXSeg P.f P.A q.ext.ring u false = some b ∧ (b = true ↔ ∃ w, OnSeg u w ∧ Inside ext.segs w) :=
      fun u hu => by
        rw [hPf, hPA]
        exact ringXSeg_inner hq.ext.ok hq.ext.made h3 see hsim (seg_mem_pts hu).1 (seg_mem_pts hu).2 (fun v hvm hh => hv v hvm ⟨u, segEq ▸ hu, hh⟩)
          (hab u (segEq ▸ hu))
    obtain ⟨d, g1, g2⟩ := anySeg_some (segAt_range b1) fun u hu => by
      obtain ⟨b, f1, -⟩ := inner u hu
      exact ⟨b, f1⟩
    have hd : d = true ↔ ∃ w, OnBoundary (edges s.pts) w ∧ Inside ext.segs w := by
      rw [g2]
      constructor
      · rintro ⟨u, hu, e⟩
        obtain ⟨b, f1, f2⟩ := inner u hu
        rw [f1, Option.some.injEq] at e
        obtain ⟨w, w1, w2⟩ := f2.1 e
        exact ⟨w, ⟨u, segEq ▸ hu, w1⟩, w2⟩
      · rintro ⟨w, ⟨u, hu, w1⟩, w2⟩
        have hu' : u ∈ segments s.pts false := by rw [segEq]; exact hu
        obtain ⟨b, f1, f2⟩ := inner u hu'
        exact ⟨u, hu', by rw [f1, f2.2 ⟨w, w1, w2⟩]⟩
    rw [k1, g1]
    refine ⟨c && !d, by cases c <;> cases d <;> rfl, ?_⟩
    rw [Bool.and_eq_true, Bool.not_eq_true', ← Bool.not_eq_true, hd, k2]
    constructor
    · rintro ⟨⟨p, hp, hb⟩, hn⟩
      exact ⟨⟨p, segEq ▸ seg_of_pts h2 (by simp) p hp, .inl hb⟩, fun w w1 w2 => hn ⟨w, w1, w2⟩⟩
    · rintro ⟨⟨w, ⟨u, hu, hw⟩, hreg⟩, hn⟩
      refine ⟨?_, fun ⟨w, w1, w2⟩ => hn w w1 w2⟩
      have hu' : u ∈ segments s.pts false := by rw [segEq]; exact hu
      by_contra hno
      push Not at hno
      have offa := hno _ (seg_mem_pts hu').1
      have offb := hno _ (seg_mem_pts hu').2
      have hsegs : ext.segs = edges l := hl
      rw [hsegs] at hn offa offb hreg
      have na := hn u.a ⟨u, hu, onSeg_left u⟩
      have nb := hn u.b ⟨u, hu, onSeg_right u⟩
      have hwb : OnBoundary (edges l) w := hreg.resolve_right (hn w ⟨u, hu, hw⟩)
      obtain ⟨e, he, hew⟩ := hwb
      have hpos : 0 < (edges l).countP (fun t => Share ⟨u.a, u.b⟩ t) := List.countP_pos_iff.2 ⟨e, he, decide_eq_true ⟨w, hw, hew⟩⟩
      have hsl : Simple l := fun i j s t hij hi hj z hz1 hz2 => (hmem z).2 (hsim i j s t hij (by rw [hl]; exact hi) (by rw [hl]; exact hj) z hz1 hz2)
      by_cases h2c : 2 ≤ (edges l).countP (fun t => Share ⟨u.a, u.b⟩ t)
      · obtain ⟨z, z1, z2⟩ := inside_of_two hcl hl3 hsl offb nb _ u.a le_rfl (fun v hvl hh => hv v ((hmem v).1 hvl) ⟨u, hu, hh⟩) h2c
        exact hn z ⟨u, hu, z1⟩ z2
      · have := parity_differs hcl hl3 offa offb (by omega)
        have na' : ncross (edges l) u.a % 2 ≠ 1 := fun h => na ⟨offa, h⟩
        have nb' : ncross (edges l) u.b % 2 ≠ 1 := fun h => nb ⟨offb, h⟩
        omega
  · have hc' : (polyRect q).intersects o.rect = false := by simpa using hc
    rw [hc']
    refine ⟨false, rfl, iff_of_false (by simp) ?_⟩
    rintro ⟨⟨w, ⟨u, hu, hw⟩, hreg⟩, -⟩
    have hu' : u ∈ segments s.pts false := by rw [segEq]; exact hu
    refine hc ((C20_intersects _ _ (valid (by omega) hring) (valid (by omega) hline)).2 ⟨w, region_rect hcl hrect (by rw [← hl]; exact hreg),
      has_between (hline _ (seg_mem_pts hu').1) (hline _ (seg_mem_pts hu').2) hw⟩)

/-! ### Two polygons -/

omit hPf hPA in
theorem countTouches_spec {a : Ring K K} {points : List (Pt K)} {X : Seg K → Prop} [DecidablePred X] : ∀ {is : List Nat} {ss : List (Seg K)} {n : Nat},
    is.map (segAt points) = ss.map some →
    (∀ s ∈ ss, ∃ b c, ringXSeg P.f P.A a s true = some b ∧ ringXSeg P.f P.A a s false = some c ∧ (b = true ↔ X s)) →
    countTouches P a points is n = some none ∨
      (countTouches P a points is n = some (some (n + ss.countP (fun s => X s))) ∧ ∀ s ∈ ss, ringXSeg P.f P.A a s false = some false)
  | [], ss, n, h, _ => by
    cases ss with
    | nil => exact .inr ⟨rfl, by simp⟩
    | cons => simp at h
  | i :: is, [], _, h, _ => by simp at h
  | i :: is, s :: ss, n, h, hb => by
    simp only [List.map_cons, List.cons.injEq] at h
    obtain ⟨b, c, h1, h2, h3⟩ := hb s (by simp)
    rw [countTouches, h.1]
    dsimp only
    rw [h1, h2]
    cases c with
    | true => cases b <;> exact .inl rfl
    | false =>
      cases b with
      | true =>
        simp only [Bool.not_false, Bool.and_true, if_true]
        rcases countTouches_spec (n := n + 1) h.2 (fun t ht => hb t (by simp [ht])) with g | ⟨g1, g2⟩
        · exact .inl g
        · refine .inr ⟨?_, fun t ht => ?_⟩
          · rw [g1, List.countP_cons, if_pos (decide_eq_true (h3.1 rfl))]
            congr 2
            omega
          · rcases List.mem_cons.1 ht with rfl | ht
            exacts [h2, g2 t ht]
      | false =>
        simp only [Bool.not_false, Bool.and_true, Bool.false_eq_true, if_false, Bool.or_self]
        rcases countTouches_spec (n := n) h.2 (fun t ht => hb t (by simp [ht])) with g | ⟨g1, g2⟩
        · exact .inl g
        · refine .inr ⟨?_, fun t ht => ?_⟩
          · rw [g1, List.countP_cons, if_neg (by simp only [decide_eq_true_eq]; exact fun hx => by simpa using h3.2 hx)]
            rfl
          · rcases List.mem_cons.1 ht with rfl | ht
            exacts [h2, g2 t ht]

/-- The function always has an answer for two polygons without holes. With true, the polygons have a point in common, no vertex of one is inside of the
other, and there is a segment of one of them that does not meet the other. -/
theorem polyTouchesPoly_sound {ea eb : Series K} {q r : PolyS K K} (hq : PolyIs ε ns ea [] q) (hr : PolyIs ε ns eb [] r) (ha3 : 3 ≤ ea.pts.length)
    (hb3 : 3 ≤ eb.pts.length) (sa : RingsSee ε ns [ea] eb.pts) (sb : RingsSee ε ns [eb] ea.pts) :
    ∃ b, polyTouchesPoly P q r = some b ∧ (b = true → (∃ w, InRegion ea.segs w ∧ InRegion eb.segs w) ∧ (∀ p ∈ eb.pts, ¬ Inside ea.segs p) ∧
      (∀ p ∈ ea.pts, ¬ Inside eb.segs p) ∧ ((∃ t ∈ ea.segs, ∀ w, OnSeg t w → ¬ InRegion eb.segs w) ∨ ∃ t ∈ eb.segs, ∀ w, OnSeg t w → ¬ InRegion ea.segs w)) := by
  classical
  have noHoles : ∀ {e : Series K} {q : PolyS K K}, PolyIs ε ns e [] q → q.holes = [] := fun {e q} hq => by
    have := hq.holes
    cases hh : q.holes with
    | nil => rfl
    | cons x xs => rw [hh] at this; cases this
  have fa := hq.ext
  have fb := hr.ext
  obtain ⟨a1, -⟩ := newIx_some Ix.exact_lawful fa.ok fa.made
  obtain ⟨b1, -⟩ := newIx_some Ix.exact_lawful fb.ok fb.made
  have seea := sa ea (by simp) _ fa.made
  have seeb := sb eb (by simp) _ fb.made
  have each : ∀ {s t : Series K} {x : FRing K K}, FOk ε ns s x → 3 ≤ s.pts.length → Sees ε ns s x.ring t.pts → ∀ u ∈ t.segs,
      ∃ b c, ringXSeg P.f P.A x.ring u true = some b ∧ ringXSeg P.f P.A x.ring u false = some c ∧ (b = true ↔ ∃ w, OnSeg u w ∧ InRegion s.segs w) := by
    intro s t x hx h3 see u hu
    obtain ⟨b, f1, f2⟩ := ringXSeg_iff hx.ok h3 hx.made see.search (see.pip _ (seg_mem_pts hu).1) (see.pip _ (seg_mem_pts hu).2)
    obtain ⟨c, g1, -⟩ := ringXSeg_false hx.ok hx.made h3 see (seg_mem_pts hu).1 (seg_mem_pts hu).2
    rw [hPf, hPA]
    exact ⟨b, c, f1, g1, f2⟩
  have free : ∀ {s t : Series K} {x : FRing K K}, FOk ε ns s x → 3 ≤ s.pts.length → 3 ≤ t.pts.length → Sees ε ns s x.ring t.pts →
      (∀ u ∈ t.segs, ringXSeg P.f P.A x.ring u false = some false) → ∀ p ∈ t.pts, ¬ Inside s.segs p := by
    intro s t x hx h3 h3' see hf p hp hin
    obtain ⟨u, hu, hpu⟩ := vertex_end' h3' p hp
    obtain ⟨c, g1, g2, g3, -⟩ := ringXSeg_false hx.ok hx.made h3 see (seg_mem_pts hu).1 (seg_mem_pts hu).2
    have := hf u hu
    rw [hPf, hPA, g1, Option.some.injEq] at this
    subst this
    rcases hpu with e | e
    · exact absurd (g2 (e ▸ hin)) (by simp)
    · exact absurd (g3 (e ▸ hin)) (by simp)
  rw [polyTouchesPoly, noHoles hq, noHoles hr]
  by_cases hc : (!(polyRect q).intersects (polyRect r)) = true
  · rw [if_pos hc]
    exact ⟨false, rfl, by simp⟩
  rw [if_neg hc]
  simp only [inHole]
  rw [extTouches]
  rcases countTouches_spec (P := P) (a := q.ext.ring) (n := 0) (X := fun u => ∃ w, OnSeg u w ∧ InRegion ea.segs w) (segAt_range b1)
    (each fa ha3 seea) with c1 | ⟨c1, d1⟩
  · rw [c1]
    exact ⟨false, rfl, by simp⟩
  rcases countTouches_spec (P := P) (a := r.ext.ring) (n := 0) (X := fun u => ∃ w, OnSeg u w ∧ InRegion eb.segs w) (segAt_range a1)
    (each fb hb3 seeb) with c2 | ⟨c2, d2⟩
  · rw [c1, c2]
    exact ⟨false, rfl, by simp⟩
  rw [c1, c2]
  simp only [Nat.zero_add, a1.nsegs_eq, b1.nsegs_eq]
  split_ifs with hp
  · refine ⟨_, rfl, fun ht => ⟨?_, free fa ha3 hb3 seea d1, free fb hb3 ha3 seeb d2, ?_⟩⟩
    · rw [Bool.or_eq_true, decide_eq_true_eq, decide_eq_true_eq] at hp
      rcases hp with hp | hp
      · obtain ⟨u, hu, hX⟩ := List.countP_pos_iff.1 hp
        obtain ⟨w, w1, w2⟩ := of_decide_eq_true hX
        exact ⟨w, .inl ⟨u, hu, w1⟩, w2⟩
      · obtain ⟨u, hu, hX⟩ := List.countP_pos_iff.1 hp
        obtain ⟨w, w1, w2⟩ := of_decide_eq_true hX
        exact ⟨w, w2, .inl ⟨u, hu, w1⟩⟩
    · by_contra hcon
      push Not at hcon
      obtain ⟨k1, k2⟩ := hcon
      have e1 : (segments ea.pts true).countP (fun u => ∃ w, OnSeg u w ∧ InRegion eb.segs w) = (segments ea.pts true).length :=
        List.countP_eq_length.2 fun u hu => decide_eq_true (k1 u hu)
      have e2 : (segments eb.pts true).countP (fun u => ∃ w, OnSeg u w ∧ InRegion ea.segs w) = (segments eb.pts true).length :=
        List.countP_eq_length.2 fun u hu => decide_eq_true (k2 u hu)
      rw [e1, e2] at ht
      simp at ht
  · exact ⟨false, rfl, by simp⟩

end

end Tg.S
