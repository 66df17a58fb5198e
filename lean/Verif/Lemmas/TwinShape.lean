import Verif.Lemmas.Twin
import Verif.Lemmas.Intersects
import Verif.Spec.MadeBy
import Verif.Spec.General
/-! A geometry made with some arithmetic has a twin made with exact arithmetic. -/
set_option linter.unusedSectionVars false
namespace Tg.S.Ag

variable {K β : Type*} [Field K] [LinearOrder K] [IsStrictOrderedRing K] [FloorRing K] [LinearOrder β]

/-- What is needed of the conversion to index coordinates, for coordinates in the set. -/
structure Fits (D : K → Prop) (f : Ix K β) : Prop where
  lawful : f.Lawful
  wide_mono : ∀ x y, x ≤ y → f.wide x ≤ f.wide y
  down : ∀ x, D x → f.wide (f.down x) ≤ x
  up : ∀ x, D x → x ≤ f.wide (f.up x)

theorem Fits.exact (D : K → Prop) : Fits D (Ix.exact : Ix K K) := ⟨Ix.exact_lawful, fun _ _ h => h, fun _ _ => le_rfl, fun _ _ => le_rfl⟩

theorem Fits.tight {D : K → Prop} {f : Ix K β} (h : Fits D f) {segs : List (Seg K)} (hs : ∀ s ∈ segs, SegIn D s) : f.Tight segs := by
  refine ⟨h.wide_mono, fun s k p hp => ?_, fun s k p hp => ?_⟩
  · rcases hp with rfl | rfl
    · exact ⟨h.down _ (hs s k).1.1, h.down _ (hs s k).1.2⟩
    · exact ⟨h.down _ (hs s k).2.1, h.down _ (hs s k).2.2⟩
  · rcases hp with rfl | rfl
    · exact ⟨h.up _ (hs s k).1.1, h.up _ (hs s k).1.2⟩
    · exact ⟨h.up _ (hs s k).2.1, h.up _ (hs s k).2.2⟩

theorem Fits.encloses {D : K → Prop} {f : Ix K β} (h : Fits D f) {r : Rect K} (h1 : PtIn D r.lo) (h2 : PtIn D r.hi) : f.Encloses r :=
  ⟨h.down _ h1.1, h.up _ h2.1, h.down _ h1.2, h.up _ h2.2⟩

variable {ε : K} {ns : List (Pt K) → Nat}

theorem exact_law (D : K → Prop) : StripeLaw D (fun n => 0 < n) (Tg.S.exact ε ns) where
  ok lo hi n _ _ h _ := exact_stripeOk h
  top lo hi n _ _ h _ := exact_stripe_top h
  lt lo hi n y k _ _ h hn _ _ hy hk := exact_stripe_lt hn h hy hk
  flat lo n y _ := by
    show (if lo - lo = 0 then none else _) = none
    rw [if_pos (sub_self lo)]

theorem stripes_pos (A : Arith K) (pts : List (Pt K)) : 0 < stripesOf A pts := by unfold stripesOf; omega

/-- All that is assumed. -/
structure Setup (D : K → Prop) (C : Maker K β) (ε : K) (ns : List (Pt K) → Nat) (N : Nat → Prop) : Prop where
  zero : D 0
  fits : Fits D C.f
  ray : ∀ s p, SegIn D s → PtIn D p → raycast C.A s p = raycast (Tg.S.exact ε ns) s p
  law : StripeLaw D N C.A
  count : ∀ pts, N (stripesOf C.A pts)
  convex : ∀ pts, (∀ p ∈ pts, PtIn D p) → C.convex pts = ringConvex pts

variable {D : K → Prop} {C : Maker K β} {N : Nat → Prop} (hS : Setup D C ε ns N) {H : HArith K} {Q : Qsort} {c : Prop}
include hS

theorem ring_exists {s : Series K} (hD : ∀ p ∈ s.pts, PtIn D p) (hc : c → C.clockwise s.pts = ringClockwise s.pts) {r : FRing K β} (hr : FBy C s r)
    (hfit : ∀ t : Ring K K, newIx Ix.exact (Tg.S.exact ε ns) s.e s.pts true s.ix = some t → SearchOk s.e s.pts s.ix t) :
    ∃ t : FRing K K, FOk ε ns s t ∧ TwinF D C.f Ix.exact C.A (Tg.S.exact ε ns) c r t := by
  obtain ⟨t, ht⟩ := twin_exists hS.fits.lawful (g := (Ix.exact : Ix K K)) Ix.exact_lawful hS.law (exact_law (ε := ε) (ns := ns) D) hr.ok hD
    (stripes_pos _ _) hr.made
  obtain ⟨b, hb⟩ : ∃ b, ringClockwise s.pts = some b := by
    have := hr.convex
    rw [hS.convex _ hD] at this
    unfold ringConvex at this
    cases e : orient s.pts with
    | none => rw [e] at this; cases this
    | some o => exact ⟨o.clockwise, by rw [ringClockwise, e]; rfl⟩
  refine ⟨⟨t, r.convex, b⟩, ⟨hr.ok, ht, ?_, hb⟩, ?_, rfl, fun h => ?_⟩
  · rw [← hS.convex _ hD]; exact hr.convex
  · refine twin_of hS.zero hS.fits.lawful Ix.exact_lawful hS.ray hS.law (exact_law D) hr.ok hD (hS.count _) (stripes_pos _ _) hr.made ht ?_
    rcases hfit t ht with h | h | h
    exacts [.inl (.inl h), .inl (.inr h), .inr h]
  · have := hr.clockwise
    rw [hc h, hb] at this
    exact (Option.some.inj this).symm

theorem rings_exist : ∀ {ss : List (Series K)} {rs : List (FRing K β)}, List.Forall₂ (FBy C) ss rs →
    (∀ s ∈ ss, (∀ p ∈ s.pts, PtIn D p) ∧ (c → C.clockwise s.pts = ringClockwise s.pts) ∧
      (∀ t : Ring K K, newIx Ix.exact (Tg.S.exact ε ns) s.e s.pts true s.ix = some t → SearchOk s.e s.pts s.ix t)) →
    ∃ ts : List (FRing K K), List.Forall₂ (FOk ε ns) ss ts ∧ List.Forall₂ (TwinF D C.f Ix.exact C.A (Tg.S.exact ε ns) c) rs ts
  | _, _, .nil, _ => ⟨[], .nil, .nil⟩
  | _, _, .cons (a := s) h hs, hk => by
    obtain ⟨k1, k2, k3⟩ := hk s (by simp)
    obtain ⟨t, t1, t2⟩ := ring_exists hS k1 k2 h k3
    obtain ⟨ts, u1, u2⟩ := rings_exist hs fun x hx => hk x (List.mem_cons_of_mem _ hx)
    exact ⟨t :: ts, .cons t1 u1, .cons t2 u2⟩

/-- What is assumed of a ring. -/
def RingFit (C : Maker K β) (ε : K) (ns : List (Pt K) → Nat) (c : Prop) (s : Series K) : Prop :=
  (c → C.clockwise s.pts = ringClockwise s.pts) ∧
      (∀ t : Ring K K, newIx Ix.exact (Tg.S.exact ε ns) s.e s.pts true s.ix = some t → SearchOk s.e s.pts s.ix t)

theorem atom_exists {x : AShape K} {a : Atom K β} (ha : x.By C a) (hD : ∀ p ∈ x.nodes, PtIn D p) (hr : ∀ s ∈ x.rings, RingFit C ε ns c s) :
    ∃ b : Atom K K, x.Is ε ns b ∧ TwinA D C.f Ix.exact C.A (Tg.S.exact ε ns) c a b := by
  match x, a, ha with
  | .point p, .point q, ha =>
    obtain rfl : q = p := ha
    exact ⟨.point q, rfl, .point (hD q (by simp [AShape.nodes]))⟩
  | .line s, .line l, ha =>
    obtain ⟨hok, hm⟩ := ha
    have hD : ∀ p ∈ s.pts, PtIn D p := hD
    obtain ⟨t, ht⟩ := twin_exists hS.fits.lawful (g := (Ix.exact : Ix K K)) Ix.exact_lawful hS.law (exact_law (ε := ε) (ns := ns) D) hok hD
      (stripes_pos _ _) hm
    have hsg : ∀ u ∈ segments s.pts false, SegIn D u := fun u hu => ⟨hD _ (seg_mem_pts hu).1, hD _ (seg_mem_pts hu).2⟩
    refine ⟨.line t, ⟨hok, ht⟩, .line ⟨?_, s.pts, _, (newIx_some hS.fits.lawful hok hm).1, (newIx_some Ix.exact_lawful hok ht).1, hS.fits.tight hsg,
      Ix.exact_tight _⟩⟩
    exact twin_of hS.zero hS.fits.lawful Ix.exact_lawful hS.ray hS.law (exact_law D) hok hD (hS.count _) (stripes_pos _ _) hm ht (.inl (leaves_open _ _))
  | .poly ext holes, .poly (.ring r), ha =>
    obtain ⟨h0, h1⟩ := ha
    obtain ⟨k2, k3⟩ := hr ext (by simp [AShape.rings])
    obtain ⟨t, t1, t2⟩ := ring_exists hS (fun p hp => hD p (by simp only [AShape.nodes, List.mem_flatMap]; exact ⟨ext, by simp, hp⟩)) k2 h1 k3
    exact ⟨.poly (.ring t), ⟨h0, t1⟩, .poly (.ring t2)⟩
  | .poly ext holes, .poly (.poly e hs), ha =>
    obtain ⟨h1, h2⟩ := ha
    obtain ⟨k2, k3⟩ := hr ext (by simp [AShape.rings])
    obtain ⟨t, t1, t2⟩ := ring_exists hS (fun p hp => hD p (by simp only [AShape.nodes, List.mem_flatMap]; exact ⟨ext, by simp, hp⟩)) k2 h1 k3
    obtain ⟨ts, u1, u2⟩ := rings_exist hS h2 fun s hs => by
      refine ⟨fun p hp => hD p (by simp only [AShape.nodes, List.mem_flatMap]; exact ⟨s, by simp [hs], hp⟩), ?_⟩
      exact hr s (by simp [AShape.rings, hs])
    exact ⟨.poly (.poly t ts), ⟨t1, u1⟩, .poly (.poly t2 u2)⟩

omit hS in
theorem inflate_in : ∀ (rs : List (Rect K)) (r : Rect K), (∀ q ∈ rs, PtIn D q.lo ∧ PtIn D q.hi) → PtIn D r.lo → PtIn D r.hi →
    PtIn D (rs.foldl Rect.inflate r).lo ∧ PtIn D (rs.foldl Rect.inflate r).hi
  | [], r, _, h1, h2 => ⟨h1, h2⟩
  | q :: rs, r, h, h1, h2 => by
    have hq := h q (by simp)
    have mi : ∀ a b, D a → D b → D (min a b) := fun a b ha hb => by rcases min_choice a b with e | e <;> rw [e] <;> assumption
    have ma : ∀ a b, D a → D b → D (max a b) := fun a b ha hb => by rcases max_choice a b with e | e <;> rw [e] <;> assumption
    exact inflate_in rs _ (fun x hx => h x (List.mem_cons_of_mem _ hx)) ⟨mi _ _ h1.1 hq.1.1, mi _ _ h1.2 hq.1.2⟩ ⟨ma _ _ h2.1 hq.2.1, ma _ _ h2.2 hq.2.2⟩

omit hS in
theorem multi_rect {f : Ix K β} (hQ : QsortOk Q) {δ : Type*} {rectOf : δ → Rect K} {gs : List δ} {rect : Rect K} {ix : Option (Index β)} {ixg : List Nat}
    (h : multiNew f H Q rectOf gs = some ⟨gs, rect, ix, ixg⟩) : rect = inflateRect (gs.map rectOf) := by
  obtain ⟨h1, h2⟩ := inflateRect_spec (gs.map rectOf)
  obtain ⟨m, -⟩ := multiNew_ok hQ h
  cases gs with
  | nil =>
    unfold multiNew at h
    dsimp only at h
    rw [if_neg (by simp [multiSpread])] at h
    cases h
    rfl
  | cons g gs =>
    refine Rect.ext_of_le (m.rect_least (by simp) _ fun x hx => h1 _ (List.mem_map_of_mem hx)) (h2 (by simp) _ ?_)
    intro r hr
    obtain ⟨x, hx, rfl⟩ := List.mem_map.1 hr
    exact m.rect_le x hx

mutual
theorem shape_exists (hQ : QsortOk Q) : ∀ {x : Shape K} {a : Geo K β}, x.By C H Q a → (∀ p ∈ x.nodes, PtIn D p) → (∀ s ∈ x.rings, RingFit C ε ns c s) →
    ∃ b : Geo K K, x.Is ε ns H Q b ∧ TwinG D C.f Ix.exact C.A (Tg.S.exact ε ns) c a b ∧ PtIn D (Geo.rect b).lo ∧ PtIn D (Geo.rect b).hi
  | .null, .null, _, _, _ => ⟨.null, by rw [Shape.Is]; trivial, .null, ⟨hS.zero, hS.zero⟩, ⟨hS.zero, hS.zero⟩⟩
  | .empty, .empty, _, _, _ => ⟨.empty, by rw [Shape.Is]; trivial, .empty, ⟨hS.zero, hS.zero⟩, ⟨hS.zero, hS.zero⟩⟩
  | .atom x, .atom a, h, hD, hr => by
    rw [Shape.By] at h
    have hD : ∀ p ∈ x.nodes, PtIn D p := fun p hp => hD p (by simpa [Shape.nodes, Shape.atoms] using hp)
    obtain ⟨b, h1, h2⟩ := atom_exists hS h hD fun s hs => hr s (by simpa [Shape.rings, Shape.atoms] using hs)
    refine ⟨.atom b, by rw [Shape.Is]; exact h1, .atom h2, ?_⟩
    cases h2 with
    | point hp => exact ⟨hp, hp⟩
    | line hl => exact ⟨hl.lo, hl.hi⟩
    | poly hq => exact ⟨hq.ext.ring.lo, hq.ext.ring.hi⟩
  | .coll cs, .multi flag gs rect ix ixg, h, hD, hr => by
    rw [Shape.By] at h
    obtain ⟨h1, h2, h3⟩ := h
    obtain ⟨gs', k1, k2, k3⟩ := shapes_exist hQ h3 (fun p hp => hD p hp) (fun s hs => hr s hs)
    have hrect : gs.map Geo.rect = gs'.map Geo.rect := k2.rects
    have hr1 : ∀ x ∈ gs, PtIn D (Geo.rect x).lo ∧ PtIn D (Geo.rect x).hi := by
      intro x hx
      have : Geo.rect x ∈ gs'.map Geo.rect := by rw [← hrect]; exact List.mem_map_of_mem hx
      obtain ⟨y, hy, e⟩ := List.mem_map.1 this
      rw [← e]
      exact k3 y hy
    obtain ⟨ix', hm⟩ := multi_exists (g := (Ix.exact : Ix K K)) hQ hrect h2
    refine ⟨.multi flag gs' rect ix' ixg, ?_, ?_, ?_⟩
    · rw [Shape.Is]
      refine ⟨fun hf => ?_, hm, k1⟩
      have := k2.nil_iff
      rw [h1 hf] at this
      simpa using this.symm
    · refine .multi k2 fun q answers st => ?_
      exact multi_search (it := multiIter answers) (it' := multiIter answers) hS.fits.wide_mono (fun _ _ h => h) hQ hrect (fun x hx => hS.fits.encloses (hr1 x hx).1 (hr1 x hx).2)
        (fun x hx => (Fits.exact D).encloses (k3 x hx).1 (k3 x hx).2) h2 hm (fun _ _ _ _ => rfl) q st
    · show PtIn D rect.lo ∧ PtIn D rect.hi
      rw [multi_rect hQ hm]
      cases gs' with
      | nil => exact ⟨⟨hS.zero, hS.zero⟩, ⟨hS.zero, hS.zero⟩⟩
      | cons y ys =>
        refine inflate_in _ _ ?_ (k3 y (by simp)).1 (k3 y (by simp)).2
        intro q hq
        obtain ⟨x, hx, rfl⟩ := List.mem_map.1 hq
        exact k3 x (List.mem_cons_of_mem _ hx)

theorem shapes_exist (hQ : QsortOk Q) : ∀ {xs : List (Shape K)} {as : List (Geo K β)}, Shape.ByAll C H Q xs as →
    (∀ p ∈ (Shape.allAtoms xs).flatMap AShape.nodes, PtIn D p) → (∀ s ∈ (Shape.allAtoms xs).flatMap AShape.rings, RingFit C ε ns c s) →
    ∃ bs : List (Geo K K), Shape.IsAll ε ns H Q xs bs ∧ TwinGs D C.f Ix.exact C.A (Tg.S.exact ε ns) c as bs ∧
      ∀ b ∈ bs, PtIn D (Geo.rect b).lo ∧ PtIn D (Geo.rect b).hi
  | [], [], _, _, _ => ⟨[], by rw [Shape.IsAll]; trivial, .nil, by simp⟩
  | x :: xs, a :: as, h, hD, hr => by
    rw [Shape.ByAll] at h
    simp only [Shape.allAtoms, List.flatMap_append, List.mem_append] at hD hr
    obtain ⟨b, h1, h2, h3⟩ := shape_exists hQ h.1 (fun p hp => hD p (.inl hp)) (fun s hs => hr s (.inl hs))
    obtain ⟨bs, k1, k2, k3⟩ := shapes_exist hQ h.2 (fun p hp => hD p (.inr hp)) (fun s hs => hr s (.inr hs))
    refine ⟨b :: bs, by rw [Shape.IsAll]; exact ⟨h1, k1⟩, .cons h2 k2, fun y hy => ?_⟩
    rcases List.mem_cons.1 hy with rfl | hy
    exacts [h3, k3 y hy]
end

end Tg.S.Ag
