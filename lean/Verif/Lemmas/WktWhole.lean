import Verif.Lemmas.WktRead
import Verif.Lemmas.Text
/-! Whole texts: what the parser makes of each, and the writer's texts are among them. -/
set_option linter.unusedSectionVars false
namespace Tg.Wp
open Spec Spec.Wkt Spec.Json

variable {sd : List Byte → F64}

theorem dims_bounds (z m : Bool) : 2 ≤ dims z m ∧ dims z m ≤ 4 := ⟨dims_ge z m, dims_le z m⟩

/-! ### What is built -/

theorem view_line {z m : Bool} {ps : List (List F64)} (hp : ∀ p ∈ ps, posOk z m p) :
    view (.gline (zmFlags z m) (some (ps.map ptOf)) (ps.flatMap extraOf) none) = some (.line z m ps) := by
  have hl := dims_ge z m
  simp only [view, zmFlags, Bool.false_eq_true, if_false]
  have := (posns_map (k := dims z m - 2) (ps := ps) (fun p hq => by rw [hp p hq]; omega) []).1
  rw [List.append_nil] at this
  rw [this]

theorem view_mpoint {z m : Bool} {ps : List (List F64)} (hp : ∀ p ∈ ps, posOk z m p) :
    view (.mpoint (zmFlags z m) (some (ps.map ptOf)) (ps.flatMap extraOf) none) = some (.mpoint z m ps) := by
  have hl := dims_ge z m
  simp only [view, zmFlags, Bool.false_eq_true, if_false, Option.getD_some]
  have := (posns_map (k := dims z m - 2) (ps := ps) (fun p hq => by rw [hp p hq]; omega) []).1
  rw [List.append_nil] at this
  rw [this]

theorem rings_polyOf {rs : List (List (List F64))} (h : rs ≠ []) : rings (polyOf rs) = rs.map (·.map ptOf) := by
  cases rs with
  | nil => exact absurd rfl h
  | cons r rs => rfl

theorem view_poly {z m : Bool} {rs : List (List (List F64))} (h0 : rs ≠ []) (hp : ∀ r ∈ rs, ∀ p ∈ r, posOk z m p) :
    view (.gpoly (zmFlags z m) (some (polyOf rs)) (rs.flatMap (·.flatMap extraOf)) none) = some (.poly z m rs) := by
  have hl := dims_ge z m
  simp only [view, zmFlags, Bool.false_eq_true, if_false]
  have := (posnss_map (k := dims z m - 2) (rs := rs) (fun r hr p hq => by rw [hp r hr p hq]; omega) []).1
  rw [List.append_nil] at this
  rw [rings_polyOf h0, this]

theorem view_mline {z m : Bool} {rs : List (List (List F64))} (hp : ∀ r ∈ rs, ∀ p ∈ r, posOk z m p) :
    view (.mline (zmFlags z m) (some (rs.map fun l => some (l.map ptOf))) (rs.flatMap (·.flatMap extraOf)) none) = some (.mline z m rs) := by
  have hl := dims_ge z m
  simp only [view, zmFlags, Bool.false_eq_true, if_false, Option.getD_some]
  rw [show (rs.map fun l => some (l.map ptOf)) = (rs.map (·.map ptOf)).map some by simp [List.map_map, Function.comp_def], mapM_id_map_some]
  have := (posnss_map (k := dims z m - 2) (rs := rs) (fun r hr p hq => by rw [hp r hr p hq]; omega) []).1
  rw [List.append_nil] at this
  simp only [this]

theorem view_mpoly {z m : Bool} {ps : List (List (List (List F64)))} (h0 : ∀ rs ∈ ps, rs ≠ []) (hp : ∀ rs ∈ ps, ∀ r ∈ rs, ∀ p ∈ r, posOk z m p) :
    view (.mpoly (zmFlags z m) (some (ps.map fun rs => some (polyOf rs))) (ps.flatMap (·.flatMap (·.flatMap extraOf))) none) = some (.mpoly z m ps) := by
  have hl := dims_ge z m
  simp only [view, zmFlags, Bool.false_eq_true, if_false, Option.getD_some]
  rw [show (ps.map fun l => some (polyOf l)) = (ps.map polyOf).map some by simp [List.map_map, Function.comp_def], mapM_id_map_some]
  have := posnsss_map (k := dims z m - 2) (ps := ps) (fun rs h r hr p hq => by rw [hp rs h r hr p hq]; omega) []
  rw [List.append_nil] at this
  dsimp only
  rw [List.map_map, show ps.map (rings ∘ polyOf) = ps.map (·.map (·.map ptOf)) from List.map_congr_left fun rs hrs => rings_polyOf (h0 rs hrs), this]

theorem dims_two {z m : Bool} (h : dims z m = 2) : z = false ∧ m = false := by
  cases z <;> cases m <;> simp [dims] at h ⊢

/-! ### One level -/

theorem wf_checkRing {z m : Bool} {ps : List (List F64)} (h : RingWf z m ps) : checkBase .ring (ps.map ptOf) = none := by
  obtain ⟨h3, hp, hc⟩ := h
  rw [checkBase]
  unfold checkPosns
  simp only [if_true, List.length_map]
  rw [if_neg (by omega), List.head?_map, List.getLast?_map]
  have hne : ps ≠ [] := by rintro rfl; simp at h3
  obtain ⟨p0, h0⟩ : ∃ p0, ps.head? = some p0 := ⟨_, List.head?_eq_some_head hne⟩
  obtain ⟨p1, h1⟩ : ∃ p1, ps.getLast? = some p1 := ⟨_, List.getLast?_eq_some_getLast hne⟩
  rw [h0, h1]
  simp only [Option.map_some]
  have hl := dims_ge z m
  have e0 : p0.length = dims z m := hp _ (List.mem_of_head? h0)
  have e1 : p1.length = dims z m := hp _ (List.mem_of_getLast? h1)
  obtain ⟨a, b⟩ := hc p0 p1 h0 h1
  rw [(ptOf_getD (p := p0) (by omega)).1, (ptOf_getD (p := p0) (by omega)).2,
    (ptOf_getD (p := p1) (by omega)).1, (ptOf_getD (p := p1) (by omega)).2, a, b]
  rfl

theorem wf_checkLine {z m : Bool} {ps : List (List F64)} (h : LineWf z m ps) : checkBase .line (ps.map ptOf) = none := checkPosns_line h.1

theorem parsePoint_of {z m z' m' : Bool} (hd : Decl z m z' m') {l after : List Byte} {p : List F64} (h : IsSeries (Num sd) l [p]) (hp : posOk z m p) (ha : Ends after) :
    ∃ g, parsePoint sd z' m' l after = .ok g ∧ view g = some (.point z m (some p)) := by
  obtain ⟨w, t, w', hw, ht, hw', rfl⟩ : ∃ w t w', Ws w ∧ IsPosn (Num sd) t p ∧ Ws w' ∧ l = w ++ (t ++ w') := by
    cases h with
    | one w t' w' a hw ht hw' => exact ⟨w, t', w', hw, ht, hw', rfl⟩
    | cons w t' w' a l' as hw ht hw' hl => cases hl
  obtain ⟨b, u, hb, -, hbw, -⟩ := posn_head ht
  have hD := dims_bounds z m
  have hpl : p.length = dims z m := hp
  have e1 : trim (w ++ (t ++ w')) = t ++ w' := by rw [trim_ws hw, hb, List.cons_append, trim_cons hbw]
  have e2 := pointLoop_of (dims := dims0 z' m') ha hw' ht ((t ++ w').length + 1) [] (by omega) (by simp; omega)
  rw [parsePoint]
  dsimp only
  rw [e1]
  split
  · rename_i h; rw [hb] at h; cases h
  · rw [e2]
    simp only [P.bind, List.nil_append]
    have hif : ¬ (if dims0 z' m' = 0 then p.length < 2 else p.length ≠ dims0 z' m') := by
      split_ifs with h0
      · omega
      · rcases hd.dims with h | h
        · exact absurd h h0
        · omega
    rw [if_neg hif]
    refine ⟨_, rfl, ?_⟩
    have hm := hd.meas
    cases z <;> cases m <;> simp [dims] at hpl
    · match p, hpl with
      | [x, y], _ => rfl
    · match p, hpl with
      | [x, y, a], _ => simp at hm; subst hm; rfl
    · match p, hpl with
      | [x, y, a], _ => simp at hm; subst hm; rfl
    · match p, hpl with
      | [x, y, a, c], _ => rfl

theorem parseLine_of {z m z' m' : Bool} (hd : Decl z m z' m') {l after : List Byte} {ps : List (List F64)} (h : IsSeries (Num sd) l ps) (hp : LineWf z m ps) (ha : Ends after) :
    ∃ g, parseLine sd z' m' l after = .ok g ∧ view g = some (.line z m ps) := by
  rw [parseLine, parsePosns_of (dims_bounds z m) ha h hp.2 (wf_checkLine hp) hd.dims]
  simp only [P.bind]
  refine ⟨_, rfl, ?_⟩
  split_ifs with h2
  · obtain ⟨rfl, rfl⟩ := dims_two h2
    simp only [view, Bool.or_self, Bool.false_eq_true, if_false]
    rw [posns_zero_map hp.2]
  · rw [hd.flags]; exact view_line hp.2

theorem parseRings_of {z m : Bool} {dims' : Nat} (hd : dims' = 0 ∨ dims' = dims z m) {l after : List Byte} {rs : List (List (List F64))} (h : IsRings (Num sd) l rs)
    (hp : ∀ r ∈ rs, RingWf z m r) (ho : opens l ≤ 1023) : parseRings sd dims' l after = .ok (dims z m, rs) := by
  have := (groupLoop_of (inner := parsePosns sd .ring) (L := IsSeries (Num sd)) (D := dims z m) (Q := RingWf z m)
    (fun dims g after a h1 h2 h3 h4 _ => parsePosns_of (dims_bounds z m) h4 h2 h3.2.1 (wf_checkRing h3) h1)
    (fun g a h => series_neutral h) after h hp ho (l.length + 1) dims' (by omega) hd).1
  rw [parseRings, this]
  simp only [P.bind]
  rw [if_neg (by cases h <;> simp)]

theorem parsePolygon_of {z m z' m' : Bool} (hd : Decl z m z' m') {l after : List Byte} {rs : List (List (List F64))} (h : IsRings (Num sd) l rs) (hp : ∀ r ∈ rs, RingWf z m r)
    (ho : opens l ≤ 1023) : ∃ g, parsePolygon sd z' m' l after = .ok g ∧ view g = some (.poly z m rs) := by
  rw [parsePolygon, parseRings_of hd.dims h hp ho]
  simp only [P.bind]
  refine ⟨_, rfl, ?_⟩
  have h0 : rs ≠ [] := by cases h <;> simp
  split_ifs with h2
  · obtain ⟨rfl, rfl⟩ := dims_two h2
    simp only [view, Bool.or_self, Bool.false_eq_true, if_false]
    rw [rings_polyOf h0, posnss_zero_map (fun r hr => (hp r hr).2.1)]
  · rw [hd.flags]; exact view_poly h0 (fun r hr => (hp r hr).2.1)

theorem parseMPoint_of {z m z' m' : Bool} (hd : Decl z m z' m') {l after : List Byte} {ps : List (List F64)} (h : IsPoints (Num sd) l ps) (hp : ∀ p ∈ ps, posOk z m p) (ha : Ends after) :
    ∃ g, parseMPoint sd z' m' l after = .ok g ∧ view g = some (.mpoint z m ps) := by
  rw [parseMPoint, parsePosns_points (dims_bounds z m) ha h hp hd.dims]
  simp only [P.bind]
  exact ⟨_, rfl, by rw [hd.flags]; exact view_mpoint hp⟩

theorem parseMLine_of {z m z' m' : Bool} (hd : Decl z m z' m') {l after : List Byte} {ls : List (List (List F64))} (h : IsRings (Num sd) l ls) (hp : ∀ r ∈ ls, LineWf z m r)
    (ho : opens l ≤ 1023) : ∃ g, parseMLine sd z' m' l after = .ok g ∧ view g = some (.mline z m ls) := by
  have := (groupLoop_of (inner := parsePosns sd .line) (L := IsSeries (Num sd)) (D := dims z m) (Q := LineWf z m)
    (fun dims g after a h1 h2 h3 h4 _ => parsePosns_of (dims_bounds z m) h4 h2 h3.2 (wf_checkLine h3) h1)
    (fun g a h => series_neutral h) after h hp ho (l.length + 1) (dims0 z' m') (by omega) hd.dims).1
  rw [parseMLine, this]
  simp only [P.bind]
  exact ⟨_, rfl, by rw [hd.flags]; exact view_mline fun r hr => (hp r hr).2⟩

theorem parseMPoly_of {z m z' m' : Bool} (hd : Decl z m z' m') {l after : List Byte} {ps : List (List (List (List F64)))} (h : IsPolys (Num sd) l ps)
    (hp : ∀ rs ∈ ps, rs ≠ [] ∧ ∀ r ∈ rs, RingWf z m r) (ho : opens l ≤ 1023) : ∃ g, parseMPoly sd z' m' l after = .ok g ∧ view g = some (.mpoly z m ps) := by
  have := (groupLoop_of (inner := parseRings sd) (L := IsRings (Num sd)) (D := dims z m) (Q := fun rs => rs ≠ [] ∧ ∀ r ∈ rs, RingWf z m r)
    (fun dims g after a h1 h2 h3 h4 h5 => parseRings_of h1 h2 h3.2 h5)
    (fun g a h => rings_neutral h) after h hp ho (l.length + 1) (dims0 z' m') (by omega) hd.dims).1
  rw [parseMPoly, this]
  simp only [P.bind]
  exact ⟨_, rfl, by rw [hd.flags]; exact view_mpoly (fun rs h => (hp rs h).1) fun rs h r hr => ((hp rs h).2 r hr).2.1⟩

/-! ### The whole text of one geometry -/

/-- What `parse_wkt` does with a group. -/
def dispatch (sd : List Byte → F64) (d : Nat) (T : GType) (z m : Bool) (grp after : List Byte) : P Geom :=
  match T with
  | .point => parsePoint sd z m grp after
  | .linestring => parseLine sd z m grp after
  | .polygon => parsePolygon sd z m grp after
  | .multipoint => parseMPoint sd z m grp after
  | .multilinestring => parseMLine sd z m grp after
  | .multipolygon => parseMPoly sd z m grp after
  | .collection => parseColl (parseWkt sd d) grp after

theorem any_ws {w : List Byte} (h : Ws w) : (w.any fun c => !isWs c) = false := by
  rw [List.any_eq_false]
  intro b hb
  simp [ws_isWs h b hb]

/-- Before the group. -/
theorem parse_head {T : GType} {z m : Bool} {tag w0 w : List Byte} (ht : IsTag (tname T) z m tag) (hw0 : Ws w0) (hw : Ws w) (g : List Byte) :
    ∃ z' m', Decl z m z' m' ∧ ∀ d after,
      parseWkt sd (d + 1) (w0 ++ (tag ++ (w ++ 0x28#8 :: g))) after =
        match balance 1 1 g with
        | none => .err invalidText
        | some (grp, r) => if r.any (fun c => !isWs c) then .err invalidText else dispatch sd d T z' m' grp (0x29#8 :: (r ++ after)) := by
  obtain ⟨z', m', h1, h2⟩ := wkt2type_tag ht
  refine ⟨z', m', h2, fun d after => ?_⟩
  obtain ⟨b, l, hb, hbw, hl⟩ := tag_ends ht
  have hflat : ∀ c ∈ tag ++ w, c ≠ 0x28#8 := fun c hc => (flat_append (tag_flat ht) (ws_flat hw) c hc).1
  obtain ⟨s1, s2⟩ := split_flat hflat (0x28#8 :: g) (.inr ⟨_, rfl⟩)
  have e0 : trim (w0 ++ (tag ++ (w ++ 0x28#8 :: g))) = tag ++ w ++ 0x28#8 :: g := by
    rw [trim_ws hw0, hb, List.cons_append, trim_cons hbw]; simp
  have e1 : trimEnd (tag ++ w) = tag := by rw [hb]; exact trimEnd_of hw hl
  rw [parseWkt.eq_def]
  dsimp only
  rw [if_neg (by rw [hb]; simp), e0, s1, s2, e1, h1]
  dsimp only
  rw [if_neg (by decide)]
  rfl

theorem parse_group {T : GType} {z m : Bool} {tag w0 w w1 g : List Byte} (ht : IsTag (tname T) z m tag) (hw0 : Ws w0) (hw : Ws w) (hw1 : Ws w1) (hg : Neutral g) (ho : opens g ≤ 1023) :
    ∃ z' m', Decl z m z' m' ∧ ∀ d after,
      parseWkt sd (d + 1) (w0 ++ ((tag ++ (w ++ 0x28#8 :: (g ++ [0x29#8]))) ++ w1)) after = dispatch sd d T z' m' g (0x29#8 :: (w1 ++ after)) := by
  obtain ⟨z', m', h1, h2⟩ := parse_head (sd := sd) ht hw0 hw (g ++ 0x29#8 :: w1)
  refine ⟨z', m', h1, fun d after => ?_⟩
  have := h2 d after
  rw [balance_neutral hg ho] at this
  dsimp only at this
  rw [if_neg (by rw [any_ws hw1]; decide)] at this
  rw [← this]; simp

theorem parse_empty {T : GType} {t w0 w1 : List Byte} (h : TaggedEmpty (tname T) t) (hw0 : Ws w0) (hw1 : Ws w1) (d : Nat) (after : List Byte) :
    parseWkt sd (d + 1) (w0 ++ (t ++ w1)) after = .ok (emptyGeom T) := by
  obtain ⟨z, m, tag, w, e, ht, hw, h0, he, rfl⟩ := h
  obtain ⟨z', m', h1⟩ := wkt2type_empty ht hw h0 he
  obtain ⟨b, l, hb, hbw, -⟩ := tag_ends ht
  have hep := kw_plain he empty_letters
  have hflat : ∀ c ∈ (tag ++ (w ++ e)) ++ w1, c ≠ 0x28#8 :=
    fun c hc => (flat_append (flat_append (tag_flat ht) (flat_append (ws_flat hw) hep.flat)) (ws_flat hw1) c hc).1
  obtain ⟨s1, s2⟩ := split_flat hflat [] (.inl rfl)
  rw [List.append_nil] at s1 s2
  have e0 : trim (w0 ++ (tag ++ (w ++ e) ++ w1)) = tag ++ (w ++ e) ++ w1 := by
    rw [trim_ws hw0, hb, List.cons_append, List.cons_append, trim_cons hbw]
  have e1 : trimEnd (tag ++ (w ++ e) ++ w1) = tag ++ (w ++ e) := by
    obtain ⟨e', c, hec⟩ : ∃ e' c, e = e' ++ [c] := by
      rcases List.eq_nil_or_concat e with rfl | ⟨e', c, rfl⟩
      · have := kw_length he; exact absurd this (by decide)
      · exact ⟨e', c, by simp⟩
    rw [hb, List.cons_append]
    exact trimEnd_of hw1 (.inr ⟨l ++ (w ++ e'), c, by rw [hec]; simp, (hep c (by rw [hec]; simp)).1⟩)
  rw [parseWkt.eq_def]
  dsimp only
  rw [if_neg (by rw [hb]; simp), e0, s1, e1, h1]
  dsimp only
  rw [if_pos rfl]

/-! ### Shapes -/

/-- A text of a geometry is a name and a group, or has neither comma nor parenthesis. -/
def Shape (t : List Byte) : Prop := (∃ h g, t = h ++ 0x28#8 :: (g ++ [0x29#8]) ∧ Flat h ∧ Neutral g) ∨ (Flat t ∧ t ≠ [])

theorem shape_tagged {T : GType} {z m : Bool} {L : List Byte → Prop} (hL : ∀ l, L l → Neutral l) {t : List Byte} (h : Tagged (tname T) z m L t) : Shape t := by
  obtain ⟨tag, w, l, h1, h2, h3, rfl⟩ := h
  exact .inl ⟨tag ++ w, l, by simp, flat_append (tag_flat h1) (ws_flat h2), hL l h3⟩

theorem shape_empty {T : GType} {t : List Byte} (h : TaggedEmpty (tname T) t) : Shape t := by
  obtain ⟨z, m, tag, w, e, ht, hw, h0, he, rfl⟩ := h
  exact .inr ⟨flat_append (tag_flat ht) (flat_append (ws_flat hw) (kw_plain he empty_letters).flat), by
    obtain ⟨b, l, hb, -⟩ := tag_ends ht; rw [hb]; simp⟩

theorem Shape.neutral {t : List Byte} (h : Shape t) : Neutral t := by
  rcases h with ⟨h, g, rfl, h1, h2⟩ | ⟨h, -⟩
  · exact h1.neutral.append h2.paren
  · exact h.neutral

mutual
theorem wkt_shape (v : GV) : ∀ t, IsWkt (Num sd) v t → Shape t := by
  match v with
  | .point z m (some p) => intro t h; exact shape_tagged (T := .point) (fun l h => series_neutral h) h
  | .point z m none => intro t h; exact shape_empty (T := .point) h
  | .line z m ps =>
    intro t h
    rw [IsWkt] at h
    split_ifs at h
    · exact shape_empty (T := .linestring) h
    · exact shape_tagged (T := .linestring) (fun l h => series_neutral h) h
  | .poly z m rs =>
    intro t h
    rw [IsWkt] at h
    split_ifs at h
    · exact shape_empty (T := .polygon) h
    · exact shape_tagged (T := .polygon) (fun l h => rings_neutral h) h
  | .mpoint z m ps =>
    intro t h
    rw [IsWkt] at h
    split_ifs at h
    · exact shape_empty (T := .multipoint) h
    · exact shape_tagged (T := .multipoint) (fun l h => points_neutral h) h
  | .mline z m ls =>
    intro t h
    rw [IsWkt] at h
    split_ifs at h
    · exact shape_empty (T := .multilinestring) h
    · exact shape_tagged (T := .multilinestring) (fun l h => rings_neutral h) h
  | .mpoly z m ps =>
    intro t h
    rw [IsWkt] at h
    split_ifs at h
    · exact shape_empty (T := .multipolygon) h
    · exact shape_tagged (T := .multipolygon) (fun l h => polys_neutral h) h
  | .coll gs =>
    intro t h
    rw [IsWkt] at h
    rcases h with ⟨-, h⟩ | ⟨-, z, m, h⟩
    · exact shape_empty (T := .collection) h
    · exact shape_tagged (T := .collection) (fun l h => wkts_neutral gs l h) h
theorem wkts_neutral (vs : List GV) : ∀ l, AreWkt (Num sd) vs l → Neutral l := by
  match vs with
  | [] => intro l h; exact absurd h (by simp [AreWkt])
  | v :: vs =>
    intro l h
    rw [AreWkt] at h
    obtain ⟨w, t, w', hw, ht, hw', ⟨-, rfl⟩ | ⟨l', hl', rfl⟩⟩ := h
    · exact (ws_flat hw).neutral.append ((wkt_shape v t ht).neutral.append (ws_flat hw').neutral)
    · exact (ws_flat hw).neutral.append ((wkt_shape v t ht).neutral.append ((ws_flat hw').neutral.append (neutral_comma (wkts_neutral vs l' hl'))))
end

theorem next_flat {h : List Byte} (hf : Flat h) (r : List Byte) (hr : r = [] ∨ ∃ u, r = 0x2C#8 :: u) : nextGeometry (h ++ r) = some (h, r) := by
  induction h with
  | nil =>
    rcases hr with rfl | ⟨u, rfl⟩
    · rfl
    · rw [List.nil_append, nextGeometry, if_pos rfl]
  | cons b h ih =>
    have hb := hf b (by simp)
    rw [List.cons_append, nextGeometry, if_neg hb.2.2, if_neg hb.1, ih (fun c hc => hf c (by simp [hc]))]
    rfl

theorem next_group {h : List Byte} (hf : Flat h) {g : List Byte} (hg : Neutral g) (ho : opens g ≤ 1023) (r : List Byte) :
    nextGeometry (h ++ 0x28#8 :: (g ++ 0x29#8 :: r)) = some (h ++ 0x28#8 :: (g ++ [0x29#8]), r) := by
  induction h with
  | nil => rw [List.nil_append, nextGeometry, if_neg (by decide), if_pos rfl, balance_neutral hg ho]; rfl
  | cons b h ih =>
    have hb := hf b (by simp)
    rw [List.cons_append, nextGeometry, if_neg hb.2.2, if_neg hb.1, ih (fun c hc => hf c (by simp [hc]))]
    rfl

/-- A member of a collection: the slice that is parsed, and what follows. -/
theorem next_member {t w w' : List Byte} (hs : Shape t) (hw : Ws w) (hw' : Ws w') (ho : opens t ≤ 1024) (k : List Byte) (hk : k = [] ∨ ∃ u, k = 0x2C#8 :: u) :
    ∃ w1 r, Ws w1 ∧ nextGeometry (w ++ (t ++ (w' ++ k))) = some (w ++ (t ++ w1), r) ∧ trim r = k ∧ w ++ (t ++ w1) ≠ [] := by
  rcases hs with ⟨h, g, rfl, h1, h2⟩ | ⟨h1, h2⟩
  · refine ⟨[], w' ++ k, by simp [Ws], ?_, ?_, by simp⟩
    · have := next_group (flat_append (ws_flat hw) h1) h2 (by
        simp only [opens_append, opens_cons] at ho
        simp at ho; omega) (w' ++ k)
      simp only [List.append_assoc, List.cons_append, List.nil_append, List.append_nil] at this ⊢
      exact this
    · rw [trim_ws hw']
      rcases hk with rfl | ⟨u, rfl⟩
      · rfl
      · exact trim_cons (by decide)
  · refine ⟨w', k, hw', ?_, ?_, by simp [h2]⟩
    · have := next_flat (flat_append (ws_flat hw) (flat_append h1 (ws_flat hw'))) k hk
      simpa using this
    · rcases hk with rfl | ⟨u, rfl⟩
      · rfl
      · exact trim_cons (by decide)

/-! ### All geometries -/

theorem opens_group {tag w l : List Byte} : opens (tag ++ (w ++ 0x28#8 :: (l ++ [0x29#8]))) = opens tag + opens w + opens l + 1 := by
  simp only [opens_append, opens_cons]; simp [opens]; omega

mutual
theorem read_wkt (v : GV) (t : List Byte) (ht : IsWkt (Num sd) v t) (hv : Wf v) (d : Nat) (hd : opens t ≤ d) (ho : opens t ≤ 1024) (w0 w1 after : List Byte) (hw0 : Ws w0) (hw1 : Ws w1) :
    ∃ g, parseWkt sd (d + 1) (w0 ++ (t ++ w1)) after = .ok g ∧ view g = some (bare v) := by
  match v with
  | .point z m (some p) =>
    obtain ⟨tag, w, l, h1, h2, h3, rfl⟩ := ht
    rw [opens_group] at ho
    obtain ⟨z', m', h4, h5⟩ := parse_group (sd := sd) (T := .point) h1 hw0 h2 hw1 (series_neutral h3) (by omega)
    rw [h5]
    exact parsePoint_of h4 h3 hv ⟨_, rfl⟩
  | .point z m none => exact ⟨_, parse_empty (T := .point) ht hw0 hw1 d after, rfl⟩
  | .line z m ps =>
    rw [IsWkt] at ht
    rw [bare]
    split_ifs at ht ⊢ with h0
    · exact ⟨_, parse_empty (T := .linestring) ht hw0 hw1 d after, rfl⟩
    · obtain ⟨tag, w, l, h1, h2, h3, rfl⟩ := ht
      rw [opens_group] at ho
      obtain ⟨z', m', h4, h5⟩ := parse_group (sd := sd) (T := .linestring) h1 hw0 h2 hw1 (series_neutral h3) (by omega)
      rw [h5]
      exact parseLine_of h4 h3 (hv.resolve_left h0) ⟨_, rfl⟩
  | .poly z m rs =>
    rw [IsWkt] at ht
    rw [bare]
    split_ifs at ht ⊢ with h0
    · exact ⟨_, parse_empty (T := .polygon) ht hw0 hw1 d after, rfl⟩
    · obtain ⟨tag, w, l, h1, h2, h3, rfl⟩ := ht
      rw [opens_group] at ho
      obtain ⟨z', m', h4, h5⟩ := parse_group (sd := sd) (T := .polygon) h1 hw0 h2 hw1 (rings_neutral h3) (by omega)
      rw [h5]
      exact parsePolygon_of h4 h3 hv (by omega)
  | .mpoint z m ps =>
    rw [IsWkt] at ht
    rw [bare]
    split_ifs at ht ⊢ with h0
    · exact ⟨_, parse_empty (T := .multipoint) ht hw0 hw1 d after, rfl⟩
    · obtain ⟨tag, w, l, h1, h2, h3, rfl⟩ := ht
      rw [opens_group] at ho
      obtain ⟨z', m', h4, h5⟩ := parse_group (sd := sd) (T := .multipoint) h1 hw0 h2 hw1 (points_neutral h3) (by omega)
      rw [h5]
      exact parseMPoint_of h4 h3 hv ⟨_, rfl⟩
  | .mline z m ls =>
    rw [IsWkt] at ht
    rw [bare]
    split_ifs at ht ⊢ with h0
    · exact ⟨_, parse_empty (T := .multilinestring) ht hw0 hw1 d after, rfl⟩
    · obtain ⟨tag, w, l, h1, h2, h3, rfl⟩ := ht
      rw [opens_group] at ho
      obtain ⟨z', m', h4, h5⟩ := parse_group (sd := sd) (T := .multilinestring) h1 hw0 h2 hw1 (rings_neutral h3) (by omega)
      rw [h5]
      exact parseMLine_of h4 h3 hv (by omega)
  | .mpoly z m ps =>
    rw [IsWkt] at ht
    rw [bare]
    split_ifs at ht ⊢ with h0
    · exact ⟨_, parse_empty (T := .multipolygon) ht hw0 hw1 d after, rfl⟩
    · obtain ⟨tag, w, l, h1, h2, h3, rfl⟩ := ht
      rw [opens_group] at ho
      obtain ⟨z', m', h4, h5⟩ := parse_group (sd := sd) (T := .multipolygon) h1 hw0 h2 hw1 (polys_neutral h3) (by omega)
      rw [h5]
      exact parseMPoly_of h4 h3 hv (by omega)
  | .coll gs =>
    rw [IsWkt] at ht
    rcases ht with ⟨rfl, ht⟩ | ⟨h0, z, m, tag, w, l, h1, h2, h3, rfl⟩
    · exact ⟨_, parse_empty (T := .collection) ht hw0 hw1 d after, rfl⟩
    · rw [opens_group] at ho hd
      obtain ⟨z', m', h4, h5⟩ := parse_group (sd := sd) (T := .collection) h1 hw0 h2 hw1 (wkts_neutral gs l h3) (by omega)
      rw [h5, dispatch]
      obtain ⟨d, rfl⟩ : ∃ e, d = e + 1 := ⟨d - 1, by omega⟩
      obtain ⟨xs, h6, h7, h8⟩ := read_wkts gs l h3 hv d (by omega) (by omega) (0x29#8 :: (w1 ++ after)) (l.length + 1) (by omega)
      rw [parseColl, h6]
      simp only [P.bind]
      rw [if_neg (by omega)]
      refine ⟨_, rfl, ?_⟩
      simp only [view, Bool.or_self, Bool.false_eq_true, if_false, Bool.not_true]
      rw [h7, bare]
theorem read_wkts (vs : List GV) (l : List Byte) (hl : AreWkt (Num sd) vs l) (hv : Wfs vs) (d : Nat) (hd : opens l ≤ d) (ho : opens l ≤ 1024) (after : List Byte) (f : Nat) (hf : l.length < f) :
    ∃ gs, collLoop (parseWkt sd (d + 1)) after f l = .ok (vs.length - 1, gs) ∧ views gs = some (bares vs) ∧ vs.length - 1 + 1 = gs.length := by
  match vs with
  | [] => exact absurd hl (by simp [AreWkt])
  | v :: vs =>
    rw [AreWkt] at hl
    obtain ⟨w, t, w', hw, ht, hw', hl⟩ := hl
    obtain ⟨f, rfl⟩ : ∃ g, f = g + 1 := ⟨f - 1, by omega⟩
    have hsh := wkt_shape v t ht
    rcases hl with ⟨rfl, rfl⟩ | ⟨l', hl', rfl⟩
    · have hot : opens t ≤ opens (w ++ (t ++ w')) := by simp only [opens_append]; omega
      obtain ⟨w1, r, hw1, e1, e2, e3⟩ := next_member hsh hw hw' (by omega) [] (.inl rfl)
      obtain ⟨g, e4, e5⟩ := read_wkt v t ht hv.1 d (by omega) (by omega) w w1 (r ++ after) hw hw1
      rw [List.append_nil] at e1
      refine ⟨[g], ?_, by simp only [views, bares, e5], rfl⟩
      rw [collLoop.eq_def]
      generalize hx : w ++ (t ++ w') = x at *
      cases x with
      | nil => rw [nextGeometry] at e1; simp only [Option.some.injEq, Prod.mk.injEq] at e1; exact absurd e1.1.symm e3
      | cons b x =>
        dsimp only
        rw [e1]
        dsimp only
        rw [if_neg e3, e4]
        simp only [P.bind]
        rw [e2]
        rfl
    · have hot : opens t + opens l' ≤ opens (w ++ (t ++ (w' ++ 0x2C#8 :: l'))) := by simp only [opens_append, opens_cons]; omega
      obtain ⟨w1, r, hw1, e1, e2, e3⟩ := next_member hsh hw hw' (by omega) (0x2C#8 :: l') (.inr ⟨_, rfl⟩)
      obtain ⟨g, e4, e5⟩ := read_wkt v t ht hv.1 d (by omega) (by omega) w w1 (r ++ after) hw hw1
      obtain ⟨gs, i1, i2, i3⟩ := read_wkts vs l' hl' hv.2 d (by omega) (by omega) after f (by simp only [List.length_append, List.length_cons] at hf; omega)
      have hne : vs ≠ [] := by rintro rfl; exact absurd hl' (by simp [AreWkt])
      have hlen : 0 < vs.length := List.length_pos_iff.2 hne
      refine ⟨g :: gs, ?_, by simp only [views, bares, e5, i2], by simp only [List.length_cons]; omega⟩
      rw [collLoop.eq_def]
      generalize hx : w ++ (t ++ (w' ++ 0x2C#8 :: l')) = x at *
      cases x with
      | nil => rw [nextGeometry] at e1; simp only [Option.some.injEq, Prod.mk.injEq] at e1; exact absurd e1.1.symm e3
      | cons b x =>
        dsimp only
        rw [e1]
        dsimp only
        rw [if_neg e3, e4]
        simp only [P.bind]
        rw [e2]
        dsimp only
        rw [if_pos rfl, i1]
        simp only [List.length_cons, List.singleton_append]
        rw [show vs.length - 1 + 1 = vs.length + 1 - 1 by omega]
end

end Tg.Wp
