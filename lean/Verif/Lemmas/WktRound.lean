import Verif.Lemmas.WktWhole
/-! The writer's texts are texts of the geometry; texts with too many groups are rejected. -/
set_option linter.unusedSectionVars false
namespace Tg.Wp
open Spec Spec.Wkt Spec.Json

variable {sd : List Byte → F64}

/-! ### Too many groups -/

theorem balance_many {g w : List Byte} (hg : Neutral g) (ho : 1023 < opens g) : balance 1 1 (g ++ 0x29#8 :: w) = none := by
  by_contra hc
  obtain ⟨⟨a, r⟩, h⟩ := Option.ne_none_iff_exists'.1 hc
  obtain ⟨e1, e2, e3⟩ := balance_spec (k := 0) h
  rcases List.append_eq_append_iff.1 e1 with ⟨x, h1, h2⟩ | ⟨x, h1, h2⟩
  · have hx : opens a = opens g + opens x := by rw [h1, opens_append]
    omega
  · cases x with
    | nil => simp at h1; subst h1; omega
    | cons c x =>
      simp only [List.cons_append, List.cons.injEq] at h2
      obtain ⟨rfl, -⟩ := h2
      have := hg 0
      rw [h1, lvl_append, e2] at this
      simp [lvl] at this

theorem tag_opens {T : GType} {z m : Bool} {t : List Byte} (h : IsTag (tname T) z m t) : opens t = 0 := by
  rw [opens, List.countP_eq_zero]
  intro b hb
  simpa using (tag_flat h b hb).1

theorem ws_opens {w : List Byte} (h : Ws w) : opens w = 0 := by
  rw [opens, List.countP_eq_zero]
  intro b hb
  simpa using (ws_flat h b hb).1

theorem limit_tagged {T : GType} {z m : Bool} {L : List Byte → Prop} (hL : ∀ l, L l → Neutral l) {t w0 w1 : List Byte} (h : Tagged (tname T) z m L t) (hw0 : Ws w0)
    (ho : 1024 < opens t) (d : Nat) (after : List Byte) : parseWkt sd (d + 1) (w0 ++ (t ++ w1)) after = .err invalidText := by
  obtain ⟨tag, w, l, h1, h2, h3, rfl⟩ := h
  rw [opens_group, tag_opens h1, ws_opens h2] at ho
  obtain ⟨z', m', -, h5⟩ := parse_head (sd := sd) h1 hw0 h2 (l ++ 0x29#8 :: w1)
  have := h5 d after
  rw [balance_many (hL l h3) (by omega)] at this
  dsimp only at this
  rw [← this]; simp

theorem limit_empty {T : GType} {t : List Byte} (h : TaggedEmpty (tname T) t) : opens t = 0 := by
  obtain ⟨z, m, tag, w, e, ht, hw, h0, he, rfl⟩ := h
  rw [opens_append, opens_append, tag_opens ht, ws_opens hw, opens, List.countP_eq_zero.2]
  intro b hb
  simpa using (kw_plain he empty_letters b hb).2.1

theorem limit_wkt (v : GV) (t : List Byte) (ht : IsWkt (Num sd) v t) (ho : 1024 < opens t) (d : Nat) (w0 w1 after : List Byte) (hw0 : Ws w0) :
    parseWkt sd (d + 1) (w0 ++ (t ++ w1)) after = .err invalidText := by
  match v with
  | .point z m (some p) => exact limit_tagged (T := .point) (fun l h => series_neutral h) ht hw0 ho d after
  | .point z m none => rw [limit_empty (T := .point) ht] at ho; omega
  | .line z m ps =>
    rw [IsWkt] at ht
    split_ifs at ht
    · rw [limit_empty (T := .linestring) ht] at ho; omega
    · exact limit_tagged (T := .linestring) (fun l h => series_neutral h) ht hw0 ho d after
  | .poly z m ps =>
    rw [IsWkt] at ht
    split_ifs at ht
    · rw [limit_empty (T := .polygon) ht] at ho; omega
    · exact limit_tagged (T := .polygon) (fun l h => rings_neutral h) ht hw0 ho d after
  | .mpoint z m ps =>
    rw [IsWkt] at ht
    split_ifs at ht
    · rw [limit_empty (T := .multipoint) ht] at ho; omega
    · exact limit_tagged (T := .multipoint) (fun l h => points_neutral h) ht hw0 ho d after
  | .mline z m ps =>
    rw [IsWkt] at ht
    split_ifs at ht
    · rw [limit_empty (T := .multilinestring) ht] at ho; omega
    · exact limit_tagged (T := .multilinestring) (fun l h => rings_neutral h) ht hw0 ho d after
  | .mpoly z m ps =>
    rw [IsWkt] at ht
    split_ifs at ht
    · rw [limit_empty (T := .multipolygon) ht] at ho; omega
    · exact limit_tagged (T := .multipolygon) (fun l h => polys_neutral h) ht hw0 ho d after
  | .coll gs =>
    rw [IsWkt] at ht
    rcases ht with ⟨-, ht⟩ | ⟨-, z, m, ht⟩
    · rw [limit_empty (T := .collection) ht] at ho; omega
    · exact limit_tagged (T := .collection) (fun l h => wkts_neutral gs l h) ht hw0 ho d after

/-! ### The writer's text -/

variable {N : List Byte → F64 → Prop} {num : F64 → List Byte}

theorem posn_text {p : List F64} (h0 : p ≠ []) (h : ∀ x ∈ p, N (num x) x) : IsPosn N (Wkt.posn num p) p := by
  induction p with
  | nil => exact absurd rfl h0
  | cons x p ih =>
    cases p with
    | nil =>
      have := IsPosn.one (N := N) _ _ (h x (by simp))
      simpa [Wkt.posn, join, eachAfter] using this
    | cons y p =>
      have := IsPosn.cons (N := N) _ _ [0x20#8] _ _ (h x (by simp)) (by intro b hb; rw [List.mem_singleton] at hb; exact .inl hb) (by simp)
        (ih (by simp) (fun c hc => h c (by simp [hc])))
      simpa [Wkt.posn, join, eachAfter] using this

theorem items_text {α : Type} {I : List Byte → α → Prop} {f : α → List Byte} {as : List α} (h0 : as ≠ []) (h : ∀ a ∈ as, I (f a) a) : IsItems I (join 0x2C#8 (as.map f)) as := by
  induction as with
  | nil => exact absurd rfl h0
  | cons a as ih =>
    cases as with
    | nil =>
      have := IsItems.one (I := I) [] _ [] _ (by simp [Ws]) (h a (by simp)) (by simp [Ws])
      simpa [join, eachAfter] using this
    | cons b as =>
      have := IsItems.cons (I := I) [] _ [] _ _ _ (by simp [Ws]) (h a (by simp)) (by simp [Ws]) (ih (by simp) (fun c hc => h c (by simp [hc])))
      simpa [join, eachAfter] using this

theorem posOk_ne {z m : Bool} {p : List F64} (h : posOk z m p) : p ≠ [] := by
  rintro rfl
  have := dims_ge z m
  unfold posOk at h
  simp at h; omega

theorem series_text {z m : Bool} {ps : List (List F64)} (h0 : ps ≠ []) (hp : ∀ p ∈ ps, posOk z m p) (h : ∀ p ∈ ps, ∀ x ∈ p, N (num x) x) :
    IsSeries N (join 0x2C#8 (ps.map (Wkt.posn num))) ps :=
  items_text h0 fun p hp' => posn_text (posOk_ne (hp p hp')) (h p hp')

theorem rings_text {z m : Bool} {rs : List (List (List F64))} (h0 : rs ≠ []) (h1 : ∀ r ∈ rs, r ≠ []) (hp : ∀ r ∈ rs, ∀ p ∈ r, posOk z m p) (h : ∀ r ∈ rs, ∀ p ∈ r, ∀ x ∈ p, N (num x) x) :
    IsRings N (join 0x2C#8 (rs.map (Wkt.series num))) rs :=
  items_text h0 fun r hr => ⟨_, series_text (h1 r hr) (hp r hr) (h r hr), rfl⟩

theorem polys_text {z m : Bool} {ps : List (List (List (List F64)))} (h0 : ps ≠ []) (h1 : ∀ rs ∈ ps, rs ≠ []) (h2 : ∀ rs ∈ ps, ∀ r ∈ rs, r ≠ [])
    (hp : ∀ rs ∈ ps, ∀ r ∈ rs, ∀ p ∈ r, posOk z m p) (h : ∀ rs ∈ ps, ∀ r ∈ rs, ∀ p ∈ r, ∀ x ∈ p, N (num x) x) :
    IsPolys N (join 0x2C#8 (ps.map (Wkt.nested num))) ps :=
  items_text h0 fun rs hr => ⟨_, rings_text (h1 rs hr) (h2 rs hr) (hp rs hr) (h rs hr), rfl⟩

theorem tag_text (T : GType) (z m : Bool) : IsTag (tname T) z m (Wkt.tag (tname T) z m) := by
  have hk : Kw (tname T) (txt (tname T)) := by cases T <;> (unfold Kw; decide)
  by_cases h : (m && !z) = true
  · have hz : z = false := by cases z <;> simp_all
    have hm : m = true := by cases m <;> simp_all
    subst hz hm
    exact .inr ⟨rfl, txt (tname T), [0x20#8], [0x4D#8], hk, by intro b hb; rw [List.mem_singleton] at hb; exact .inl hb, by unfold Kw; decide, rfl⟩
  · refine .inl ⟨?_, by cases z <;> cases m <;> simp_all⟩
    rw [Wkt.tag, if_neg h, List.append_nil]
    exact hk

theorem empty_text (T : GType) (z m : Bool) : TaggedEmpty (tname T) (Wkt.tag (tname T) z m ++ txt " EMPTY") :=
  ⟨z, m, _, [0x20#8], txt "EMPTY", tag_text T z m, by intro b hb; rw [List.mem_singleton] at hb; exact .inl hb, by simp, by unfold Kw; decide, rfl⟩

theorem tagged_text {T : GType} {z m : Bool} {L : List Byte → Prop} {ts : List (List Byte)} (h : L (join 0x2C#8 ts)) :
    Tagged (tname T) z m L (Wkt.tag (tname T) z m ++ bracket 0x28#8 0x29#8 ts) :=
  ⟨_, [], _, tag_text T z m, by simp [Ws], h, rfl⟩

theorem texts_empty (gs : List GV) : (texts num gs).isEmpty = gs.isEmpty := by cases gs <;> rfl

theorem ne_of_len {α : Type} {l : List α} {n : Nat} (h : n + 1 ≤ l.length) : l ≠ [] := by rintro rfl; simp at h

mutual
theorem text_wkt (v : GV) (hv : Wf v) (hc : AllCoords (fun x => N (num x) x) v) : IsWkt N v (text num v) := by
  match v with
  | .point z m (some p) => 
    rw [IsWkt, text]
    exact tagged_text (T := .point) (by simpa using series_text (z := z) (m := m) (ps := [p]) (by simp) (by intro q hq; rw [List.mem_singleton] at hq; subst hq; exact hv) (by simpa [AllCoords] using hc))
  | .point z m none => exact empty_text .point z m
  | .line z m ps =>
    rw [IsWkt, text, body]
    by_cases h0 : ps = []
    · subst h0; exact empty_text .linestring z m
    · rw [if_neg h0, if_neg (by simpa using h0)]
      exact tagged_text (T := .linestring) (series_text h0 (hv.resolve_left h0).2 hc)
  | .poly z m rs =>
    rw [IsWkt, text, body]
    by_cases h0 : rs = []
    · subst h0; exact empty_text .polygon z m
    · rw [if_neg h0, if_neg (by simpa using h0)]
      exact tagged_text (T := .polygon) (rings_text h0 (fun r hr => ne_of_len (hv r hr).1) (fun r hr => (hv r hr).2.1) hc)
  | .mpoint z m ps =>
    rw [IsWkt, text, body]
    by_cases h0 : ps = []
    · subst h0; exact empty_text .multipoint z m
    · rw [if_neg h0, if_neg (by simpa using h0)]
      exact tagged_text (T := .multipoint) (.inl (series_text h0 hv hc))
  | .mline z m ls =>
    rw [IsWkt, text, body]
    by_cases h0 : ls = []
    · subst h0; exact empty_text .multilinestring z m
    · rw [if_neg h0, if_neg (by simpa using h0)]
      exact tagged_text (T := .multilinestring) (rings_text h0 (fun r hr => ne_of_len (hv r hr).1) (fun r hr => (hv r hr).2) hc)
  | .mpoly z m ps =>
    rw [IsWkt, text, body]
    by_cases h0 : ps = []
    · subst h0; exact empty_text .multipolygon z m
    · rw [if_neg h0, if_neg (by simpa using h0)]
      exact tagged_text (T := .multipolygon) (polys_text h0 (fun rs h => (hv rs h).1) (fun rs h r hr => ne_of_len ((hv rs h).2 r hr).1)
        (fun rs h r hr => ((hv rs h).2 r hr).2.1) hc)
  | .coll gs =>
    rw [IsWkt, text, body, texts_empty]
    by_cases h0 : gs = []
    · subst h0; exact .inl ⟨rfl, empty_text .collection false false⟩
    · rw [if_neg (by simpa using h0)]
      exact .inr ⟨h0, false, false, tagged_text (T := .collection) (texts_wkt gs h0 hv hc)⟩
theorem texts_wkt (vs : List GV) (h0 : vs ≠ []) (hv : Wfs vs) (hc : AllCoordss (fun x => N (num x) x) vs) : AreWkt N vs (join 0x2C#8 (texts num vs)) := by
  match vs with
  | [] => exact absurd rfl h0
  | v :: vs =>
    have h1 := text_wkt v hv.1 hc.1
    rw [AreWkt]
    refine ⟨[], _, [], by simp [Ws], h1, by simp [Ws], ?_⟩
    match vs with
    | [] => exact .inl ⟨rfl, by simp [texts, join, eachAfter]⟩
    | v' :: vs' =>
      exact .inr ⟨_, texts_wkt (v' :: vs') (by simp) hv.2 hc.2, by simp [texts, join, eachAfter]⟩
end

/-! ### How many groups -/

theorem opens_join {α : Type} {f : α → List Byte} {n : α → Nat} (as : List α) (h : ∀ a ∈ as, opens (f a) = n a) : opens (join 0x2C#8 (as.map f)) = (as.map n).sum := by
  have key : ∀ as : List α, (∀ a ∈ as, opens (f a) = n a) → opens (eachAfter 0x2C#8 (as.map f)) = (as.map n).sum := by
    intro as h
    induction as with
    | nil => rfl
    | cons a as ih =>
      simp only [List.map_cons, eachAfter, opens_cons, opens_append, List.sum_cons]
      rw [h a (by simp), ih (fun b hb => h b (by simp [hb]))]
      simp
  cases as with
  | nil => rfl
  | cons a as =>
    simp only [List.map_cons, join, opens_append, List.sum_cons]
    rw [h a (by simp), key as (fun b hb => h b (by simp [hb]))]

theorem opens_bracket {ts : List (List Byte)} : opens (bracket 0x28#8 0x29#8 ts) = 1 + opens (join 0x2C#8 ts) := by
  rw [bracket, opens_cons, opens_append]; simp [opens]; omega

theorem opens_number {t : List Byte} (h : IsNumber t) : opens t = 0 := by
  rw [opens, List.countP_eq_zero]
  intro b hb
  simpa using (number_flat h b hb).1

theorem opens_posn {p : List F64} (h : ∀ x ∈ p, IsNumber (num x)) : opens (Wkt.posn num p) = 0 := by
  have key : ∀ p : List F64, (∀ x ∈ p, IsNumber (num x)) → opens (eachAfter 0x20#8 (p.map num)) = 0 := by
    intro p h
    induction p with
    | nil => rfl
    | cons x p ih =>
      simp only [List.map_cons, eachAfter, opens_cons, opens_append]
      rw [opens_number (h x (by simp)), ih (fun y hy => h y (by simp [hy]))]
      simp
  cases p with
  | nil => rfl
  | cons x p =>
    rw [Wkt.posn]
    simp only [List.map_cons, join, opens_append]
    rw [opens_number (h x (by simp)), key p (fun y hy => h y (by simp [hy]))]

theorem sum_const {α : Type} (l : List α) (c : Nat) : (l.map fun _ => c).sum = c * l.length := by
  induction l with
  | nil => rfl
  | cons a l ih => simp only [List.map_cons, List.sum_cons, ih, List.length_cons, Nat.mul_add]; omega

theorem opens_series {ps : List (List F64)} (h : ∀ p ∈ ps, ∀ x ∈ p, IsNumber (num x)) : opens (Wkt.series num ps) = 1 := by
  rw [Wkt.series, opens_bracket, opens_join ps (n := fun _ => 0) fun p hp => opens_posn (h p hp), sum_const]; omega

theorem opens_nested {rs : List (List (List F64))} (h : ∀ r ∈ rs, ∀ p ∈ r, ∀ x ∈ p, IsNumber (num x)) : opens (Wkt.nested num rs) = 1 + rs.length := by
  rw [Wkt.nested, opens_bracket, opens_join rs (n := fun _ => 1) fun p hp => opens_series (h p hp), sum_const]; omega

theorem opens_nested2 {ps : List (List (List (List F64)))} (h : ∀ rs ∈ ps, ∀ r ∈ rs, ∀ p ∈ r, ∀ x ∈ p, IsNumber (num x)) :
    opens (Wkt.nested2 num ps) = 1 + (ps.map fun rs => 1 + rs.length).sum := by
  rw [Wkt.nested2, opens_bracket, opens_join ps (n := fun rs => 1 + rs.length) fun p hp => opens_nested (h p hp)]

theorem opens_tag (T : GType) (z m : Bool) : opens (Wkt.tag (tname T) z m) = 0 := tag_opens (tag_text T z m)

theorem opens_empty (T : GType) (z m : Bool) : opens (Wkt.tag (tname T) z m ++ txt " EMPTY") = 0 := limit_empty (empty_text T z m)

mutual
theorem text_opens (v : GV) (hc : AllCoords (fun x => IsNumber (num x)) v) : opens (text num v) = groups v := by
  match v with
  | .point z m (some p) => 
    rw [text, groups, opens_append, show ("POINT") = tname .point from rfl, opens_tag, opens_series (by simpa [AllCoords] using hc)]
  | .point z m none => exact opens_empty .point z m
  | .line z m ps =>
    rw [text, groups, body]
    by_cases h0 : ps = []
    · subst h0; exact opens_empty .linestring z m
    · rw [if_neg h0, if_neg (by simpa using h0), opens_append, show ("LINESTRING") = tname .linestring from rfl, opens_tag, opens_series hc]
  | .poly z m rs =>
    rw [text, groups, body]
    by_cases h0 : rs = []
    · subst h0; exact opens_empty .polygon z m
    · rw [if_neg h0, if_neg (by simpa using h0), opens_append, show ("POLYGON") = tname .polygon from rfl, opens_tag, opens_nested hc]; omega
  | .mpoint z m ps =>
    rw [text, groups, body]
    by_cases h0 : ps = []
    · subst h0; exact opens_empty .multipoint z m
    · rw [if_neg h0, if_neg (by simpa using h0), opens_append, show ("MULTIPOINT") = tname .multipoint from rfl, opens_tag, opens_series hc]
  | .mline z m ls =>
    rw [text, groups, body]
    by_cases h0 : ls = []
    · subst h0; exact opens_empty .multilinestring z m
    · rw [if_neg h0, if_neg (by simpa using h0), opens_append, show ("MULTILINESTRING") = tname .multilinestring from rfl, opens_tag, opens_nested hc]; omega
  | .mpoly z m ps =>
    rw [text, groups, body]
    by_cases h0 : ps = []
    · subst h0; exact opens_empty .multipolygon z m
    · rw [if_neg h0, if_neg (by simpa using h0), opens_append, show ("MULTIPOLYGON") = tname .multipolygon from rfl, opens_tag, opens_nested2 hc]; omega
  | .coll gs =>
    rw [text, groups, body, texts_empty]
    by_cases h0 : gs = []
    · subst h0; exact opens_empty .collection false false
    · rw [if_neg (by simpa using h0), if_neg (by simpa using h0), opens_append, show ("GEOMETRYCOLLECTION") = tname .collection from rfl, opens_tag, opens_bracket]
      rw [show opens (join 0x2C#8 (texts num gs)) = groupss gs from ?_]
      · omega
      · match gs with
        | [] => rfl
        | v :: vs =>
          rw [texts, join, opens_append, groupss, text_opens v hc.1, texts_opens vs hc.2]
theorem texts_opens (vs : List GV) (hc : AllCoordss (fun x => IsNumber (num x)) vs) : opens (eachAfter 0x2C#8 (texts num vs)) = groupss vs := by
  match vs with
  | [] => rfl
  | v :: vs =>
    rw [texts, eachAfter, opens_cons, opens_append, groupss, text_opens v hc.1, texts_opens vs hc.2]
    simp
end

mutual
theorem AllCoords.mono {Q Q' : F64 → Prop} (h : ∀ x, Q x → Q' x) (v : GV) (hv : AllCoords Q v) : AllCoords Q' v := by
  match v with
  | .point z m (some p) => exact fun x hx => h x (hv x hx)
  | .point z m none => trivial
  | .line z m ps => exact fun p hp x hx => h x (hv p hp x hx)
  | .poly z m rs => exact fun r hr p hp x hx => h x (hv r hr p hp x hx)
  | .mpoint z m ps => exact fun p hp x hx => h x (hv p hp x hx)
  | .mline z m rs => exact fun r hr p hp x hx => h x (hv r hr p hp x hx)
  | .mpoly z m ps => exact fun rs hrs r hr p hp x hx => h x (hv rs hrs r hr p hp x hx)
  | .coll gs => exact AllCoordss.mono h gs hv
theorem AllCoordss.mono {Q Q' : F64 → Prop} (h : ∀ x, Q x → Q' x) (vs : List GV) (hv : AllCoordss Q vs) : AllCoordss Q' vs := by
  match vs with
  | [] => trivial
  | v :: vs => exact ⟨AllCoords.mono h v hv.1, AllCoordss.mono h vs hv.2⟩
end

end Tg.Wp
