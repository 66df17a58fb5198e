import Verif.Spec.Parts
import Verif.Spec.Wkt
import Verif.Spec.Geojson
import Verif.Spec.Interior
import Verif.Model.Bridge
import Verif.Props.Float32
/-! Lemmas on `Geom.shape` and `parts`. -/
set_option linter.unusedSectionVars false
namespace Tg

open Spec S

/-- Not a line without points. -/
def S.AShape.solid : AShape ℚ → Bool
  | .line s => !s.pts.isEmpty
  | _ => true

/-- Lists that are the same but for lines without points. -/
def Same (l l' : List (AShape ℚ)) : Prop := l.filter AShape.solid = l'.filter AShape.solid

namespace Same

variable {l l' m m' n : List (AShape ℚ)}

theorem refl (l : List (AShape ℚ)) : Same l l := rfl

theorem of_eq (h : l = l') : Same l l' := h ▸ rfl

theorem symm (h : Same l l') : Same l' l := Eq.symm h

theorem trans (h : Same l m) (h' : Same m n) : Same l n := Eq.trans h h'

theorem append (h : Same l l') (h' : Same m m') : Same (l ++ m) (l' ++ m') := by
  unfold Same at *
  rw [List.filter_append, List.filter_append, h, h']

theorem flatMap_filter {γ : Type*} (f : AShape ℚ → List γ) (hf : ∀ x, x.solid = false → f x = []) : ∀ l : List (AShape ℚ),
    (l.filter AShape.solid).flatMap f = l.flatMap f
  | [] => rfl
  | x :: l => by
    have ih := flatMap_filter f hf l
    cases h : x.solid with
    | true => rw [List.filter_cons_of_pos h, List.flatMap_cons, List.flatMap_cons, ih]
    | false => rw [List.filter_cons_of_neg (by simp [h]), List.flatMap_cons, hf x h, ih, List.nil_append]

theorem flatMap {γ : Type*} (h : Same l l') (f : AShape ℚ → List γ) (hf : ∀ x, x.solid = false → f x = []) : l.flatMap f = l'.flatMap f := by
  rw [← flatMap_filter f hf l, ← flatMap_filter f hf l', show l.filter AShape.solid = _ from h]

theorem exists_iff (h : Same l l') (P : AShape ℚ → Prop) (hP : ∀ x, x.solid = false → ¬ P x) : (∃ x ∈ l, P x) ↔ ∃ x ∈ l', P x := by
  have key : ∀ l : List (AShape ℚ), (∃ x ∈ l, P x) ↔ ∃ x ∈ l.filter AShape.solid, P x := by
    intro l
    constructor
    · rintro ⟨x, hx, hp⟩
      refine ⟨x, List.mem_filter.2 ⟨hx, ?_⟩, hp⟩
      cases e : x.solid with
      | true => rfl
      | false => exact absurd hp (hP x e)
    · rintro ⟨x, hx, hp⟩
      exact ⟨x, (List.mem_filter.1 hx).1, hp⟩
  rw [key l, key l', show l.filter AShape.solid = _ from h]

theorem forall_iff (h : Same l l') (P : AShape ℚ → Prop) (hP : ∀ x, x.solid = false → P x) : (∀ x ∈ l, P x) ↔ ∀ x ∈ l', P x := by
  have := h.exists_iff (fun x => ¬ P x) fun x hx h => h (hP x hx)
  rw [← not_iff_not]
  push Not
  exact this

end Same

theorem solid_false {x : AShape ℚ} (h : x.solid = false) : ∃ s : Series ℚ, s.pts = [] ∧ x = .line s := by
  cases x with
  | line s => exact ⟨s, by simpa [AShape.solid] using h, rfl⟩
  | point => cases h
  | poly => cases h

theorem void_has {x : AShape ℚ} (h : x.solid = false) (w : S.Pt ℚ) : ¬ x.Has w := by
  obtain ⟨s, hs, rfl⟩ := solid_false h
  simp [AShape.Has, hs, edges, OnBoundary]

theorem void_inner {x : AShape ℚ} (h : x.solid = false) (w : S.Pt ℚ) : ¬ x.Inner w := by
  obtain ⟨s, hs, rfl⟩ := solid_false h
  simp [AShape.Inner, hs, edges, OnBoundary]

theorem void_rings {x : AShape ℚ} (h : x.solid = false) : x.rings = [] := by
  obtain ⟨s, hs, rfl⟩ := solid_false h
  rfl

theorem void_verts {x : AShape ℚ} (h : x.solid = false) : x.verts = [] := by
  obtain ⟨s, hs, rfl⟩ := solid_false h
  exact hs

theorem void_nodes {x : AShape ℚ} (h : x.solid = false) : x.nodes = [] := by
  obtain ⟨s, hs, rfl⟩ := solid_false h
  exact hs

theorem void_ok {x : AShape ℚ} (h : x.solid = false) : x.Ok := by
  obtain ⟨s, hs, rfl⟩ := solid_false h
  trivial

section
variable (e : Env) (ix : BitVec 32)

@[simp] theorem posPt_pos (p : Tg.Pt) (l : List F64) : posPt ([p.x, p.y] ++ l) = p.rat := rfl

theorem posns_rat (k : Nat) : ∀ (pts : List Tg.Pt) (cs : List F64), (posns k pts cs).map posPt = pts.map Pt.rat
  | [], cs => rfl
  | p :: pts, cs => by
    rw [posns, List.map_cons, List.map_cons, posns_rat k pts, posPt_pos]

theorem series_posns (k : Nat) (pts : List Tg.Pt) (cs : List F64) : seriesOf e ix (posns k pts cs) = made e ix pts := by
  rw [seriesOf, posns_rat, made]

theorem series_posnss (k : Nat) : ∀ (rs : List (List Tg.Pt)) (cs : List F64), (posnss k rs cs).map (seriesOf e ix) = rs.map (made e ix)
  | [], cs => rfl
  | r :: rs, cs => by rw [posnss, List.map_cons, List.map_cons, series_posns, series_posnss k rs]

theorem polyParts_posnss (k : Nat) (p : Poly) (cs : List F64) : polyParts e ix (posnss k (Spec.rings p) cs) = (p.shape e ix).atoms := by
  rw [Spec.rings, posnss, polyParts, series_posns, series_posnss]
  rfl

theorem polys_posnsss (k : Nat) : ∀ (ps : List Poly) (cs : List F64),
    (posnsss k (ps.map Spec.rings) cs).flatMap (polyParts e ix) = Shape.allAtoms (ps.map fun p => p.shape e ix)
  | [], cs => rfl
  | p :: ps, cs => by
    rw [List.map_cons, posnsss, List.flatMap_cons, polyParts_posnss, polys_posnsss k ps, List.map_cons, Shape.allAtoms]

theorem allAtoms_atoms : ∀ l : List (AShape ℚ), Shape.allAtoms (l.map Shape.atom) = l
  | [] => rfl
  | x :: l => by rw [List.map_cons, Shape.allAtoms, allAtoms_atoms l]; rfl

theorem mapM_id {γ : Type*} : ∀ (l : List (Option γ)) (l' : List γ), l.mapM id = some l' → l = l'.map some
  | [], l', h => by
    rw [List.mapM_nil] at h
    cases h; rfl
  | none :: l, l', h => by simp at h
  | some x :: l, l', h => by
    rw [List.mapM_cons] at h
    cases e : l.mapM id with
    | none => rw [e] at h; cases h
    | some m =>
      rw [e] at h
      cases h
      rw [mapM_id l m e]; rfl

mutual
/-- The simple shapes of an object are those of its view. -/
theorem view_parts : ∀ (g : Geom) (v : GV), view g = some v → Same (g.shape e ix).atoms (parts e ix v)
  | .point fl p, v, h => by
    rw [view] at h
    split_ifs at h
    cases h
    exact Same.refl _
  | .line fl pts, v, h => by
    rw [view] at h
    split_ifs at h
    cases h
    rw [Geom.shape, parts, series_posns]
    exact Same.refl _
  | .poly fl pl, v, h => by
    rw [view] at h
    split_ifs at h
    cases h
    rw [Geom.shape, parts, polyParts_posnss]
    exact Same.refl _
  | .gpoint fl p z m x, v, h => by
    rw [view] at h
    rw [Geom.shape]
    cases he : fl.isEmpty with
    | true =>
      rw [he, if_pos rfl] at h
      split_ifs at h
      cases h
      rw [if_pos rfl]
      exact Same.refl _
    | false =>
      rw [he, if_neg (by simp)] at h
      cases h
      rw [if_neg (by simp)]
      exact Same.refl _
  | .gline fl none cs x, v, h => by
    simp only [view] at h
    rw [Geom.shape]
    cases he : fl.isEmpty with
    | true =>
      rw [he, if_pos rfl] at h
      cases h
      rw [if_pos rfl]
      rfl
    | false =>
      rw [he, if_neg (by simp)] at h
      cases h
  | .gline fl (some l) cs x, v, h => by
    simp only [view] at h
    rw [Geom.shape]
    cases he : fl.isEmpty with
    | true =>
      rw [he, if_pos rfl] at h
      cases h
      rw [if_pos rfl]
      rfl
    | false =>
      rw [he, if_neg (by simp)] at h
      rw [if_neg (by simp)]
      cases h
      rw [parts, series_posns]
      exact Same.refl _
  | .gpoly fl none cs x, v, h => by
    simp only [view] at h
    rw [Geom.shape]
    cases he : fl.isEmpty with
    | true =>
      rw [he, if_pos rfl] at h
      cases h
      rw [if_pos rfl]
      rfl
    | false =>
      rw [he, if_neg (by simp)] at h
      cases h
  | .gpoly fl (some l) cs x, v, h => by
    simp only [view] at h
    rw [Geom.shape]
    cases he : fl.isEmpty with
    | true =>
      rw [he, if_pos rfl] at h
      cases h
      rw [if_pos rfl]
      rfl
    | false =>
      rw [he, if_neg (by simp)] at h
      rw [if_neg (by simp)]
      cases h
      rw [parts, polyParts_posnss]
      exact Same.refl _
  | .mpoint fl ps cs x, v, h => by
    rw [view] at h
    cases h
    rw [Geom.shape, parts, Shape.atoms]
    cases he : fl.isEmpty with
    | true => rw [if_pos rfl, if_pos rfl]; rfl
    | false =>
      rw [if_neg (by simp), if_neg (by simp)]
      refine Same.of_eq ?_
      have e1 : (fun p : List F64 => AShape.point (posPt p)) = AShape.point ∘ posPt := rfl
      have e2 : (fun p : Tg.Pt => Shape.atom (.point p.rat)) = Shape.atom ∘ AShape.point ∘ Pt.rat := rfl
      rw [e1, ← List.map_map, posns_rat, e2, ← List.map_map, allAtoms_atoms, List.map_map]
  | .mline fl ls cs x, v, h => by
    rw [view] at h
    rw [Geom.shape, Shape.atoms]
    cases he : fl.isEmpty with
    | true =>
      rw [he, if_pos rfl] at h
      cases h
      rw [if_pos rfl]; rfl
    | false =>
      rw [he, if_neg (by simp)] at h
      rw [if_neg (by simp)]
      cases hm : (ls.getD []).mapM id with
      | none => rw [hm] at h; cases h
      | some l =>
        rw [hm] at h
        cases h
        rw [mapM_id _ _ hm, parts, List.map_map]
        refine Same.of_eq ?_
        have e1 : (posnss (dims fl.hasZ fl.hasM - 2) l cs).map (fun ps => AShape.line (seriesOf e ix ps)) = l.map (AShape.line ∘ made e ix) := by
          rw [← List.map_map, ← series_posnss e ix (dims fl.hasZ fl.hasM - 2) l cs, List.map_map]
          rfl
        rw [e1, ← allAtoms_atoms (l.map (AShape.line ∘ made e ix)), List.map_map]
        rfl
  | .mpoly fl ps cs x, v, h => by
    rw [view] at h
    rw [Geom.shape, Shape.atoms]
    cases he : fl.isEmpty with
    | true =>
      rw [he, if_pos rfl] at h
      cases h
      rw [if_pos rfl]; rfl
    | false =>
      rw [he, if_neg (by simp)] at h
      rw [if_neg (by simp)]
      cases hm : (ps.getD []).mapM id with
      | none => rw [hm] at h; cases h
      | some l =>
        rw [hm] at h
        cases h
        rw [mapM_id _ _ hm, parts, List.map_map, polys_posnsss]
        exact Same.refl _
  | .coll fl hm gs cs x, v, h => by
    rw [view] at h
    by_cases hz : (fl.hasZ || fl.hasM) = true
    · rw [if_pos hz] at h; cases h
    rw [if_neg hz] at h
    rw [Geom.shape, Shape.atoms]
    by_cases he : (!hm || fl.isEmpty) = true
    · rw [if_pos he] at h ⊢
      cases h
      rfl
    rw [if_neg he] at h ⊢
    cases hv : views gs with
    | none => rw [hv] at h; cases h
    | some vs =>
      rw [hv] at h
      cases h
      exact views_parts gs vs hv
  | .err m, v, h => by rw [view] at h; cases h
theorem views_parts : ∀ (gs : List Geom) (vs : List GV), views gs = some vs → Same (Shape.allAtoms (Geom.shapes e ix gs)) (partss e ix vs)
  | [], vs, h => by
    rw [views] at h
    cases h
    exact Same.refl _
  | g :: gs, vs, h => by
    rw [views] at h
    cases hg : view g with
    | none => rw [hg] at h; simp at h
    | some v =>
      cases hv : views gs with
      | none => rw [hg, hv] at h; simp at h
      | some ws =>
        rw [hg, hv] at h
        cases h
        rw [Geom.shapes, Shape.allAtoms, partss]
        exact (view_parts g v hg).append (views_parts gs ws hv)
end

mutual
theorem parts_bare : ∀ v : GV, parts e ix (Wkt.bare v) = parts e ix v
  | .point _ _ none => rfl
  | .point _ _ (some p) => rfl
  | .line z m ps => by
    rw [Wkt.bare]
    split_ifs with h
    · subst h; rfl
    · rfl
  | .poly z m ps => by
    rw [Wkt.bare]
    split_ifs with h
    · subst h; rfl
    · rfl
  | .mpoint z m ps => by
    rw [Wkt.bare]
    split_ifs with h
    · subst h; rfl
    · rfl
  | .mline z m ps => by
    rw [Wkt.bare]
    split_ifs with h
    · subst h; rfl
    · rfl
  | .mpoly z m ps => by
    rw [Wkt.bare]
    split_ifs with h
    · subst h; rfl
    · rfl
  | .coll gs => by rw [Wkt.bare, parts, parts, partss_bares gs]
theorem partss_bares : ∀ vs : List GV, partss e ix (Wkt.bares vs) = partss e ix vs
  | [] => rfl
  | v :: vs => by rw [Wkt.bares, partss, partss, parts_bare v, partss_bares vs]
end

mutual
theorem parts_reread : ∀ v : GV, parts e ix (Geojson.reread v) = parts e ix v
  | .point _ _ none => rfl
  | .point _ _ (some p) => rfl
  | .line z m ps => by
    rw [Geojson.reread]
    split_ifs with h
    · subst h; rfl
    · rfl
  | .poly z m ps => by
    rw [Geojson.reread]
    split_ifs with h
    · subst h; rfl
    · rfl
  | .mpoint z m ps => by
    rw [Geojson.reread]
    split_ifs with h
    · subst h; rfl
    · rfl
  | .mline z m ps => by
    rw [Geojson.reread]
    split_ifs with h
    · subst h; rfl
    · rfl
  | .mpoly z m ps => by
    rw [Geojson.reread]
    split_ifs with h
    · subst h; rfl
    · rfl
  | .coll gs => by rw [Geojson.reread, parts, parts, partss_rereads gs]
theorem partss_rereads : ∀ vs : List GV, partss e ix (Geojson.rereads vs) = partss e ix vs
  | [] => rfl
  | v :: vs => by rw [Geojson.rereads, partss, partss, parts_reread v, partss_rereads vs]
end

end

end Tg
