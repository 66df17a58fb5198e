import Verif.Spec.Move
import Verif.Model.Move
import Verif.Lemmas.Orient
import Verif.Lemmas.Intersects
import Mathlib.Tactic.Linarith
set_option linter.unusedSectionVars false
/-! Translations change none of the relations between points and segments. -/
namespace Tg.S

variable {K : Type*} [Field K] [LinearOrder K] [IsStrictOrderedRing K] {d : Pt K}

/-- The segment, moved. -/
def Seg.shift (d : Pt K) (s : Seg K) : Seg K := ⟨Pt.shift d s.a, Pt.shift d s.b⟩

theorem shift_inj {p q : Pt K} : Pt.shift d p = Pt.shift d q ↔ p = q := by
  constructor
  · intro h
    have h1 := congrArg Pt.x h
    have h2 := congrArg Pt.y h
    simp only [Pt.shift, add_left_inj] at h1 h2
    cases p; cases q
    simp_all
  · rintro rfl; rfl

theorem shift_surj (d w : Pt K) : ∃ v, w = Pt.shift d v := ⟨⟨w.x - d.x, w.y - d.y⟩, by cases w; simp [Pt.shift]⟩

theorem onSeg_shift {s : Seg K} {p : Pt K} : OnSeg (s.shift d) (Pt.shift d p) ↔ OnSeg s p := by
  unfold OnSeg Seg.shift Pt.shift
  refine exists_congr fun t => and_congr_right fun _ => and_congr_right fun _ => and_congr ?_ ?_ <;>
  · dsimp only
    constructor <;> intro h <;> linarith

theorem crosses_shift {s : Seg K} {p : Pt K} : Crosses (s.shift d) (Pt.shift d p) ↔ Crosses s p := by
  unfold Crosses
  have e1 : min (s.shift d).a.y (s.shift d).b.y = min s.a.y s.b.y + d.y := by simp [Seg.shift, Pt.shift, min_add_add_right]
  have e2 : max (s.shift d).a.y (s.shift d).b.y = max s.a.y s.b.y + d.y := by simp [Seg.shift, Pt.shift, max_add_add_right]
  rw [e1, e2]
  refine and_congr (by simp [Pt.shift]) (and_congr (by simp [Pt.shift]) ⟨?_, ?_⟩)
  · rintro ⟨x, hx, h⟩
    refine ⟨x - d.x, by simp only [Pt.shift] at hx; linarith, ?_⟩
    rw [← onSeg_shift (d := d)]
    simpa [Pt.shift] using h
  · rintro ⟨x, hx, h⟩
    refine ⟨x + d.x, by simp only [Pt.shift]; linarith, ?_⟩
    rw [← onSeg_shift (d := d)] at h
    exact h

theorem segments_shift (pts : List (Pt K)) (cl : Bool) : segments (pts.map (Pt.shift d)) cl = (segments pts cl).map (Seg.shift d) := by
  have he : ∀ l : List (Pt K), edges (l.map (Pt.shift d)) = (edges l).map (Seg.shift d) := fun l => edges_map _ l
  have hi : Function.Injective (Pt.shift d) := fun _ _ h => shift_inj.1 h
  unfold segments
  have hc : (pts.map (Pt.shift d)).getLast? = (pts.map (Pt.shift d)).head? ↔ pts.getLast? = pts.head? := by
    rw [List.getLast?_map, List.head?_map, (Option.map_injective hi).eq_iff]
  simp only [List.length_map, hc, ← List.map_take, ← List.map_append, he]
  split_ifs <;> simp

theorem onBoundary_shift {es : List (Seg K)} {p : Pt K} : OnBoundary (es.map (Seg.shift d)) (Pt.shift d p) ↔ OnBoundary es p := by
  unfold OnBoundary
  simp [onSeg_shift]

theorem inside_shift {es : List (Seg K)} {p : Pt K} : Inside (es.map (Seg.shift d)) (Pt.shift d p) ↔ Inside es p := by
  unfold Inside
  rw [onBoundary_shift]
  have : ncross (es.map (Seg.shift d)) (Pt.shift d p) = ncross es p := by
    unfold ncross
    rw [List.countP_map]
    congr 1
    funext s
    simp [crosses_shift]
  rw [this]

theorem inRegion_shift {es : List (Seg K)} {p : Pt K} : InRegion (es.map (Seg.shift d)) (Pt.shift d p) ↔ InRegion es p := by
  unfold InRegion
  rw [onBoundary_shift, inside_shift]

theorem Series.Maps.segs {s t : Series K} (h : s.Maps (Pt.shift d) t) : t.segs = s.segs.map (Seg.shift d) := by
  rw [Series.segs, Series.segs, show t.pts = _ from h, segments_shift]

theorem forall₂_all {α β : Type*} {R : α → β → Prop} {P : α → Prop} {Q : β → Prop} (h : ∀ a b, R a b → (P a ↔ Q b)) :
    ∀ {l : List α} {m : List β}, List.Forall₂ R l m → ((∀ b ∈ m, Q b) ↔ ∀ a ∈ l, P a)
  | _, _, .nil => by simp
  | _, _, .cons h1 h2 => by simp [h _ _ h1, forall₂_all h h2]

theorem has_shift {x y : AShape K} (h : x.Maps (Pt.shift d) y) (w : Pt K) : y.Has (Pt.shift d w) ↔ x.Has w := by
  match x, y, h with
  | .point p, .point q, h =>
    rw [show q = _ from h]
    exact shift_inj
  | .line s, .line t, h =>
    show OnBoundary (edges t.pts) _ ↔ OnBoundary (edges s.pts) _
    rw [show t.pts = _ from h, edges_map]
    exact onBoundary_shift
  | .poly s hs, .poly t ks, h =>
    show (InRegion t.segs _ ∧ _) ↔ (InRegion s.segs _ ∧ _)
    rw [h.1.segs, inRegion_shift, forall₂_all (fun a b hab => ?_) h.2]
    rw [hab.segs, inside_shift]

theorem inner_shift {x y : AShape K} (h : x.Maps (Pt.shift d) y) (w : Pt K) : y.Inner (Pt.shift d w) ↔ x.Inner w := by
  match x, y, h with
  | .point p, .point q, h =>
    rw [show q = _ from h]
    exact shift_inj
  | .line s, .line t, h =>
    show (OnBoundary (edges t.pts) _ ∧ _ ∧ _) ↔ (OnBoundary (edges s.pts) _ ∧ _ ∧ _)
    have hi : Function.Injective (Pt.shift d) := fun _ _ h => shift_inj.1 h
    rw [show t.pts = _ from h, edges_map, List.head?_map, List.getLast?_map, ← Option.map_some, Ne, Ne, (Option.map_injective hi).eq_iff,
      (Option.map_injective hi).eq_iff]
    exact and_congr onBoundary_shift Iff.rfl
  | .poly s hs, .poly t ks, h =>
    show (Inside t.segs _ ∧ _) ↔ (Inside s.segs _ ∧ _)
    rw [h.1.segs, inside_shift, forall₂_all (fun a b hab => ?_) h.2]
    rw [hab.segs, inRegion_shift]

theorem turn_shift (a b c : Pt K) : turn (Pt.shift d a) (Pt.shift d b) (Pt.shift d c) = turn a b c := by
  unfold turn Pt.shift
  dsimp only
  ring

theorem chainTurns_shift : ∀ l : List (Pt K), chainTurns (l.map (Pt.shift d)) = chainTurns l
  | [] => rfl
  | [_] => rfl
  | [_, _] => rfl
  | a :: b :: c :: l => by
    have := chainTurns_shift (b :: c :: l)
    simp only [List.map_cons, chainTurns, turn_shift] at this ⊢
    rw [this]

theorem turns_shift (l : List (Pt K)) : turns (l.map (Pt.shift d)) = turns l := by
  rw [turns, ← List.map_take, ← List.map_append, chainTurns_shift, turns]

theorem shoelace_shift (l : List (Pt K)) : shoelace (l.map (Pt.shift d)) = shoelace l := shoelace_translate l d.x d.y

theorem orient_shift (pts : List (Pt K)) : orient (pts.map (Pt.shift d)) = orient pts := by
  by_cases h : 2 ≤ pts.length
  · obtain ⟨o, h1, h2, h3, h4⟩ := orient_ok h
    obtain ⟨o', k1, k2, k3, k4⟩ := orient_ok (pts := pts.map (Pt.shift d)) (by simpa using h)
    have e : ((edges (closeUp (pts.map (Pt.shift d)))).map cwTerm).sum = ((edges (closeUp pts)).map cwTerm).sum := by
      rw [cwSum_eq, cwSum_eq, shoelace_shift]
    rw [e] at k2 k3
    rw [turns_shift, ← h4] at k4
    rw [h1, k1]
    cases o; cases o'
    simp only at h2 h3 k2 k3 k4
    subst h2 h3 k2 k3
    congr 2
    exact Bool.eq_iff_iff.2 k4
  · unfold orient
    dsimp only
    rw [List.length_map, if_pos (by omega), if_pos (by omega)]

theorem convexSet_shift {es : List (Seg K)} (h : ConvexSet (Inside es)) : ConvexSet (Inside (es.map (Seg.shift d))) := by
  intro p q w hp hq hw
  obtain ⟨p, rfl⟩ := shift_surj d p
  obtain ⟨q, rfl⟩ := shift_surj d q
  obtain ⟨w, rfl⟩ := shift_surj d w
  rw [inside_shift] at hp hq ⊢
  exact h p q w hp hq (onSeg_shift.1 hw)

theorem escapes_shift {es : List (Seg K)} (h : Escapes (Inside es)) : Escapes (Inside (es.map (Seg.shift d))) := by
  intro w hw R
  obtain ⟨w, rfl⟩ := shift_surj d w
  rw [inside_shift] at hw
  obtain ⟨path, p1, p2, u, p3, p4⟩ := h w hw ⟨⟨R.lo.x - d.x, R.lo.y - d.y⟩, ⟨R.hi.x - d.x, R.hi.y - d.y⟩⟩
  refine ⟨path.map (Pt.shift d), by rw [List.head?_map, p1]; rfl, ?_, Pt.shift d u, List.mem_map_of_mem p3, ?_⟩
  · rw [edges_map]
    intro s hs v hv
    obtain ⟨s, hs', rfl⟩ := List.mem_map.1 hs
    obtain ⟨v, rfl⟩ := shift_surj d v
    rw [inside_shift]
    exact p2 s hs' v (onSeg_shift.1 hv)
  · intro hu
    apply p4
    unfold Rect.Has Pt.shift at *
    dsimp only at *
    obtain ⟨a, b, c, e⟩ := hu
    exact ⟨by linarith, by linarith, by linarith, by linarith⟩

theorem flagOk_shift {s t : Series K} (h : s.Maps (Pt.shift d) t) (hs : FlagOk s) : FlagOk t := by
  intro ht
  rw [h.segs]
  apply convexSet_shift
  apply hs
  rwa [show t.pts = _ from h, ringConvex, orient_shift] at ht

theorem ok_shift {x y : AShape K} (h : x.Maps (Pt.shift d) y) (hx : x.Ok) : y.Ok := by
  match x, y, h with
  | .point p, .point q, h => trivial
  | .line s, .line t, h => trivial
  | .poly s hs, .poly t ks, h =>
    have hx : PolyOk s hs := hx
    have hall : List.Forall₂ (Series.Maps (Pt.shift d)) (s :: hs) (t :: ks) := .cons h.1 h.2
    refine ⟨?_, ?_, ?_⟩
    · intro k hk w hw
      obtain ⟨w, rfl⟩ := shift_surj d w
      rw [has_shift (x := .poly s hs) (y := .poly t ks) h]
      obtain ⟨i, hi, rfl⟩ := List.getElem_of_mem hk
      have hl := hall.length_eq
      have hr := hall.get (i := i) (by omega) hi
      refine hx.boundary _ (List.getElem_mem (l := s :: hs) (n := i) (by omega)) w ?_
      rw [List.get_eq_getElem, List.get_eq_getElem] at hr
      rwa [hr.segs, onBoundary_shift] at hw
    all_goals
      intro k hk
      obtain ⟨i, hi, rfl⟩ := List.getElem_of_mem hk
      have hl := h.2.length_eq
      have hr := h.2.get (i := i) (by omega) hi
      rw [List.get_eq_getElem, List.get_eq_getElem] at hr
    · exact flagOk_shift hr (hx.flags _ (List.getElem_mem (by omega)))
    · rw [hr.segs]; exact escapes_shift (hx.escapes _ (List.getElem_mem (by omega)))

end Tg.S
