import Verif.Lemmas.Parsed
import Verif.Spec.Geobin
import Verif.Model.Geobin
/-! What the binary parsers build is a geometry, but for lines and polygons that are NULL and rings without points. -/
set_option linter.unusedSectionVars false
namespace Tg
open Spec Spec.Wkt
open Wp (Checked)

theorem readDoubles_len {data : List Byte} {swap : Bool} : ∀ (d i : Nat) (p : List F64), readDoubles data swap d i = some p → p.length = d := by
  intro d
  induction d with
  | zero => intro i p h; cases h; rfl
  | succ d ih =>
    intro i p h
    rw [readDoubles] at h
    split at h
    · cases h
    · rw [Option.map_eq_some_iff] at h
      obtain ⟨q, h1, rfl⟩ := h
      rw [List.length_cons, ih _ _ h1]

theorem rawPoints_len {data : List Byte} : ∀ (c i : Nat) (ps : List (List F64)), rawPoints data c i = some ps → ∀ p ∈ ps, p.length = 2 := by
  intro c
  induction c with
  | zero => intro i ps h; cases h; simp
  | succ c ih =>
    intro i ps h
    rw [rawPoints] at h
    split at h
    · cases h
    · rename_i q hq
      rw [Option.map_eq_some_iff] at h
      obtain ⟨qs, h1, rfl⟩ := h
      intro p hp
      rcases List.mem_cons.1 hp with rfl | hp
      · exact readDoubles_len _ _ _ hq
      · exact ih _ _ h1 p hp

theorem posnLoop_len {data : List Byte} {swap : Bool} {dims : Nat} : ∀ (c i j : Nat) (ps : List (List F64)), posnLoop data swap dims c i = .ok j ps → ∀ p ∈ ps, p.length = dims := by
  intro c
  induction c with
  | zero => intro i j ps h; cases h; simp
  | succ c ih =>
    intro i j ps h
    rw [posnLoop] at h
    split_ifs at h
    split at h
    · cases h
    · rename_i q hq
      split at h
      · cases h
      · cases h
      · rename_i j' ps' h1
        cases h
        intro p hp
        rcases List.mem_cons.1 hp with rfl | hp
        · exact readDoubles_len _ _ _ hq
        · exact ih _ _ _ h1 p hp

/-- Positions as `parse_wkb_posns` accepts them. -/
def Accepted (ring : Bool) (d : Nat) (ps : List (List F64)) : Prop := ps = [] ∨ Checked (if ring then .ring else .line) d ps

theorem checked_of {ring : Bool} {d : Nat} {ps : List (List F64)} (h : ∀ p ∈ ps, p.length = d) (hc : checkPosns ring (ps.map ptOf) = none) :
    Checked (if ring then .ring else .line) d ps := by cases ring <;> exact ⟨h, hc⟩

theorem readU32_ok {α : Type} {data : List Byte} {i : Nat} {swap : Bool} {inv : R α} {k : BitVec 32 → Nat → R α} {j : Nat} {a : α} (h : readU32 data i swap inv k = .ok j a)
    (hi : ∀ j a, inv ≠ .ok j a) : ∃ v, k v (i + 4) = .ok j a := by
  unfold readU32 at h
  split_ifs at h
  · exact absurd h (hi _ _)
  · split at h
    · cases h
    · exact ⟨_, h⟩

theorem npointsCheck_ok {α : Type} {ring : Bool} {c : Nat} {k : R α} {j : Nat} {a : α} (h : npointsCheck ring c k = .ok j a) : k = .ok j a := by
  unfold npointsCheck at h
  split_ifs at h
  exact h

theorem parsePosns_accepted {ring : Bool} {dims : Nat} {data : List Byte} {i : Nat} {swap : Bool} {j : Nat} {ps : List (List F64)} (h : parsePosns ring dims data i swap = .ok j ps) :
    Accepted ring dims ps := by
  unfold parsePosns at h
  obtain ⟨c, h⟩ := readU32_ok h (by simp)
  by_cases h0 : c.toNat = 0
  · rw [if_pos h0] at h; cases h; exact .inl rfl
  rw [if_neg h0] at h
  by_cases h1 : dims = 2 ∧ swap = false ∧ data.length - (i + 4) ≥ c.toNat * 16 % 2^32
  · rw [if_pos h1] at h
    have h := npointsCheck_ok h
    split at h
    · cases h
    · rename_i ps' h2
      split at h
      · cases h
      · rename_i h3
        cases h
        exact .inr (checked_of (fun p hp => (rawPoints_len _ _ _ h2 p hp).trans h1.1.symm) h3)
  · rw [if_neg h1] at h
    split at h
    · cases h
    · cases h
    · rename_i j' ps' h2
      have h := npointsCheck_ok h
      split at h
      · cases h
      · rename_i h3
        cases h
        exact .inr (checked_of (posnLoop_len _ _ _ _ h2) h3)

theorem ringLoop_accepted {dims : Nat} {data : List Byte} {swap : Bool} : ∀ (c i j : Nat) (rs : List (List (List F64))), ringLoop dims data swap c i = .ok j rs → ∀ r ∈ rs, Accepted true dims r := by
  intro c
  induction c with
  | zero => intro i j rs h; cases h; simp
  | succ c ih =>
    intro i j rs h
    rw [ringLoop] at h
    split at h
    · cases h
    · cases h
    · rename_i j' r h1
      split at h
      · cases h
      · cases h
      · rename_i j'' rs' h2
        cases h
        intro r' hr
        rcases List.mem_cons.1 hr with rfl | hr
        · exact parsePosns_accepted h1
        · exact ih _ _ _ h2 _ hr

theorem dims_dimsOf (z m : Bool) : dims z m = dimsOf z m := by cases z <;> cases m <;> rfl

/-! ### What is built -/

/-- A line. -/
def LineRes (g : Geom) : Prop :=
  g = .gline emptyFlags none [] none ∨
  ∃ z m ps, LineWf z m ps ∧ ((z || m) = true ∧ g = .gline (zmFlags z m) (some (ps.map ptOf)) (ps.flatMap extraOf) none ∨ z = false ∧ m = false ∧ g = .line {} (ps.map ptOf))

/-- A polygon. -/
def PolyRes (g : Geom) : Prop :=
  g = .gpoly emptyFlags none [] none ∨
  ∃ z m rs, rs ≠ [] ∧ (∀ r ∈ rs, r = [] ∨ RingWf z m r) ∧
    ((z || m) = true ∧ g = .gpoly (zmFlags z m) (some (Wp.polyOf rs)) (rs.flatMap (·.flatMap extraOf)) none ∨ z = false ∧ m = false ∧ g = .poly {} (Wp.polyOf rs))

theorem LineRes.sound {g : Geom} (h : LineRes g) : Sound g := by
  rcases h with rfl | ⟨z, m, ps, h, ⟨-, rfl⟩ | ⟨rfl, rfl, rfl⟩⟩
  · exact Wp.sound_empty .linestring
  · exact Wp.sound_gline h
  · exact Wp.sound_line h

theorem full_rings {z m : Bool} {rs : List (List (List F64))} (h0 : rs ≠ []) (h : ∀ r ∈ rs, r = [] ∨ RingWf z m r) (hf : [] ∉ rings (Wp.polyOf rs)) : ∀ r ∈ rs, RingWf z m r := by
  intro r hr
  refine (h r hr).resolve_left ?_
  rintro rfl
  apply hf
  rw [Wp.rings_polyOf h0]
  exact List.mem_map.2 ⟨[], hr, rfl⟩

theorem PolyRes.sound {g : Geom} (h : PolyRes g) (hf : FullRings g) : Sound g := by
  rcases h with rfl | ⟨z, m, rs, h0, h, ⟨-, rfl⟩ | ⟨rfl, rfl, rfl⟩⟩
  · exact Wp.sound_empty .polygon
  · exact Wp.sound_gpoly h0 (full_rings h0 h (hf _ rfl))
  · exact Wp.sound_poly h0 (full_rings h0 h hf)

/-- The result of the parser. -/
def BinRes (g : Geom) : Prop := (g.type = .linestring → LineRes g) ∧ (g.type = .polygon → PolyRes g) ∧ (NoNull g → FullRings g → Sound g)

theorem parsePoint_bin {z m : Bool} {data : List Byte} {i : Nat} {swap : Bool} {j : Nat} {g : Geom} (h : parsePoint z m data i swap = .ok j g) : BinRes g := by
  unfold parsePoint at h
  dsimp only at h
  by_cases h0 : i + 8 * dimsOf z m > data.length
  · rw [if_pos h0] at h; cases h
  rw [if_neg h0] at h
  split at h
  · cases h
  · rename_i p hp
    have hl := readDoubles_len _ _ _ hp
    by_cases hn : (p.all F64.isNaN) = true
    · rw [if_pos hn] at h; cases h
      exact ⟨fun h => by (cases h), fun h => by (cases h), fun _ _ => Wp.sound_empty .point⟩
    · rw [if_neg hn] at h
      cases h
      cases z <;> cases m
      · match p, hl with
        | [x, y], _ => exact ⟨fun h => by (cases h), fun h => by (cases h), fun _ _ => Wp.sound_point (z := false) (m := false) (p := [x, y]) rfl rfl trivial trivial⟩
      · match p, hl with
        | [x, y, a], _ => exact ⟨fun h => by (cases h), fun h => by (cases h), fun _ _ => Wp.sound_point (z := false) (m := true) (p := [x, y, a]) rfl rfl trivial trivial⟩
      · match p, hl with
        | [x, y, a], _ => exact ⟨fun h => by (cases h), fun h => by (cases h), fun _ _ => Wp.sound_point (z := true) (m := false) (p := [x, y, a]) rfl rfl trivial trivial⟩
      · match p, hl with
        | [x, y, a, b], _ => exact ⟨fun h => by (cases h), fun h => by (cases h), fun _ _ => Wp.sound_point (z := true) (m := true) (p := [x, y, a, b]) rfl rfl trivial trivial⟩

theorem parseLine_bin {z m : Bool} {data : List Byte} {i : Nat} {swap : Bool} {j : Nat} {g : Geom} (h : parseLine z m data i swap = .ok j g) : BinRes g := by
  have hr : LineRes g := by
    unfold parseLine at h
    split at h
    · cases h
    · cases h
    · rename_i j' ps hp
      cases h
      have ha := parsePosns_accepted hp
      by_cases h0 : ps.length = 0
      · rw [if_pos h0]; exact .inl rfl
      · rw [if_neg h0]
        have hc : Checked .line (dimsOf z m) ps := ha.resolve_left (by rintro rfl; exact h0 rfl)
        refine .inr ⟨z, m, ps, hc.line (dims_dimsOf z m), ?_⟩
        by_cases hz : (z || m) = true
        · rw [if_pos hz]; exact .inl ⟨hz, rfl⟩
        · rw [if_neg hz]
          refine .inr ?_
          cases z <;> cases m <;> simp at hz
          exact ⟨rfl, rfl, rfl⟩
  refine ⟨fun _ => hr, fun h => ?_, fun _ _ => hr.sound⟩
  rcases hr with rfl | ⟨z, m, ps, -, ⟨-, rfl⟩ | ⟨rfl, rfl, rfl⟩⟩ <;> cases h

theorem parsePoly_bin {z m : Bool} {data : List Byte} {i : Nat} {swap : Bool} {j : Nat} {g : Geom} (h : parsePoly z m data i swap = .ok j g) : BinRes g := by
  have hr : PolyRes g := by
    unfold parsePoly at h
    obtain ⟨c, h⟩ := readU32_ok h (by simp)
    split at h
    · cases h
    · cases h
    · rename_i j' rs hp
      cases h
      have ha := ringLoop_accepted _ _ _ _ hp
      cases rs with
      | nil => exact .inl rfl
      | cons r rs =>
        have hw : ∀ r' ∈ r :: rs, r' = [] ∨ RingWf z m r' := fun r' hr => (ha r' hr).imp_right fun (h : Checked .ring _ _) => h.ring (dims_dimsOf z m)
        refine .inr ⟨z, m, r :: rs, by simp, hw, ?_⟩
        simp only [List.map_cons, polyOfRings]
        by_cases hz : (z || m) = true
        · rw [if_pos hz]; exact .inl ⟨hz, rfl⟩
        · rw [if_neg hz]
          refine .inr ?_
          cases z <;> cases m <;> simp at hz
          exact ⟨rfl, rfl, rfl⟩
  refine ⟨fun h => ?_, fun _ => hr, fun _ hf => hr.sound hf⟩
  rcases hr with rfl | ⟨z, m, ps, -, -, ⟨-, rfl⟩ | ⟨rfl, rfl, rfl⟩⟩ <;> cases h

theorem childLoop_bin {child : Nat → R Geom} (hc : ∀ i j g, child i = .ok j g → BinRes g) {want : Option GType} {z m : Bool} :
    ∀ (c i j : Nat) (gs : List Geom), childLoop child want z m c i = .ok j gs → ∀ g ∈ gs, BinRes g ∧ childGood want z m g = true := by
  intro c
  induction c with
  | zero => intro i j gs h; cases h; simp
  | succ c ih =>
    intro i j gs h
    rw [childLoop] at h
    split at h
    · cases h
    · cases h
    · rename_i j' g h1
      split_ifs at h with h2
      split at h
      · cases h
      · cases h
      · rename_i j'' gs' h3
        cases h
        intro g' hg
        rcases List.mem_cons.1 hg with rfl | hg
        · exact ⟨hc _ _ _ h1, by simpa using h2⟩
        · exact ih _ _ _ h3 _ hg

theorem mpoint_bin {z m : Bool} (gs : List Geom) : Sound (buildMulti .multipoint z m gs) := by
  have hp : ∀ p ∈ gs.map (fun g => g.pt.x :: g.pt.y :: pointExtra z m g), posOk z m p := by
    intro p hp
    obtain ⟨g, -, rfl⟩ := List.mem_map.1 hp
    cases z <;> cases m <;> rfl
  have := Wp.sound_mpoint hp
  rw [List.map_map, List.flatMap_map] at this
  exact this

theorem line_child {z m : Bool} {g : Geom} (h : BinRes g) (hg : childGood (some .linestring) z m g = true) (hn : g.lineOf ≠ none) :
    ∃ ps, LineWf z m ps ∧ g.lineOf = some (ps.map ptOf) ∧ g.extraCoords = if z || m then ps.flatMap extraOf else [] := by
  simp only [childGood, typeMatch, Bool.and_eq_true, beq_iff_eq] at hg
  rcases h.1 hg.1.1 with rfl | ⟨z', m', ps, hw, ⟨hz, rfl⟩ | ⟨rfl, rfl, rfl⟩⟩
  · exact absurd rfl hn
  · obtain ⟨⟨-, rfl⟩, rfl⟩ := hg
    refine ⟨ps, hw, rfl, ?_⟩
    exact (if_pos hz).symm
  · obtain ⟨⟨-, rfl⟩, rfl⟩ := hg
    exact ⟨ps, hw, rfl, rfl⟩

theorem mline_bin {z m : Bool} (gs : List Geom) (h : ∀ g ∈ gs, BinRes g ∧ childGood (some .linestring) z m g = true) (hn : NoNull (buildMulti .multilinestring z m gs)) :
    Sound (buildMulti .multilinestring z m gs) := by
  have hn' : ∀ g ∈ gs, g.lineOf ≠ none := by
    intro g hg he
    apply hn
    exact List.mem_map.2 ⟨g, hg, he⟩
  have : ∃ pss : List (List (List F64)), (∀ l ∈ pss, LineWf z m l) ∧ gs.map Geom.lineOf = pss.map (fun l => some (l.map ptOf)) ∧
      gs.flatMap Geom.extraCoords = if z || m then pss.flatMap (·.flatMap extraOf) else [] := by
    clear hn
    induction gs with
    | nil => exact ⟨[], by simp, rfl, by simp⟩
    | cons g gs ih =>
      obtain ⟨ps, a1, a2, a3⟩ := line_child (h g (by simp)).1 (h g (by simp)).2 (hn' g (by simp))
      obtain ⟨pss, b1, b2, b3⟩ := ih (fun g hg => h g (by simp [hg])) (fun g hg => hn' g (by simp [hg]))
      refine ⟨ps :: pss, ?_, by simp [a2, b2], ?_⟩
      · intro l hl
        rcases List.mem_cons.1 hl with rfl | hl
        · exact a1
        · exact b1 l hl
      · rw [List.flatMap_cons, a3, b3]
        split_ifs <;> simp
  obtain ⟨pss, a1, a2, a3⟩ := this
  have hs := Wp.sound_mline a1
  simp only [buildMulti, a2, a3]
  split_ifs with hz
  · exact hs
  · have : z = false ∧ m = false := by simpa using hz
    obtain ⟨rfl, rfl⟩ := this
    rwa [show pss.flatMap (·.flatMap extraOf) = [] by rw [List.flatMap_eq_nil_iff]; exact fun r hr => Wp.extras_none (a1 r hr).2] at hs

theorem poly_child {z m : Bool} {g : Geom} (h : BinRes g) (hg : childGood (some .polygon) z m g = true) (hn : g.polyOf ≠ none) (hf : ∀ q, g.polyOf = some q → [] ∉ rings q) :
    ∃ rs, rs ≠ [] ∧ (∀ r ∈ rs, RingWf z m r) ∧ g.polyOf = some (Wp.polyOf rs) ∧ g.extraCoords = if z || m then rs.flatMap (·.flatMap extraOf) else [] := by
  simp only [childGood, typeMatch, Bool.and_eq_true, beq_iff_eq] at hg
  rcases h.2.1 hg.1.1 with rfl | ⟨z', m', rs, h0, hw, ⟨hz, rfl⟩ | ⟨rfl, rfl, rfl⟩⟩
  · exact absurd rfl hn
  · obtain ⟨⟨-, rfl⟩, rfl⟩ := hg
    refine ⟨rs, h0, full_rings h0 hw (hf _ rfl), rfl, ?_⟩
    exact (if_pos hz).symm
  · obtain ⟨⟨-, rfl⟩, rfl⟩ := hg
    exact ⟨rs, h0, full_rings h0 hw (hf _ rfl), rfl, rfl⟩

theorem mpoly_bin {z m : Bool} (gs : List Geom) (h : ∀ g ∈ gs, BinRes g ∧ childGood (some .polygon) z m g = true) (hn : NoNull (buildMulti .multipolygon z m gs))
    (hf : FullRings (buildMulti .multipolygon z m gs)) : Sound (buildMulti .multipolygon z m gs) := by
  have hn' : ∀ g ∈ gs, g.polyOf ≠ none := by
    intro g hg he
    apply hn
    exact List.mem_map.2 ⟨g, hg, he⟩
  have hf' : ∀ g ∈ gs, ∀ q, g.polyOf = some q → [] ∉ rings q := fun g hg q hq => hf q (List.mem_map.2 ⟨g, hg, hq⟩)
  have : ∃ pss : List (List (List (List F64))), (∀ rs ∈ pss, rs ≠ [] ∧ ∀ r ∈ rs, RingWf z m r) ∧ gs.map Geom.polyOf = pss.map (fun rs => some (Wp.polyOf rs)) ∧
      gs.flatMap Geom.extraCoords = if z || m then pss.flatMap (·.flatMap (·.flatMap extraOf)) else [] := by
    clear hn hf
    induction gs with
    | nil => exact ⟨[], by simp, rfl, by simp⟩
    | cons g gs ih =>
      obtain ⟨ps, a0, a1, a2, a3⟩ := poly_child (h g (by simp)).1 (h g (by simp)).2 (hn' g (by simp)) (hf' g (by simp))
      obtain ⟨pss, b1, b2, b3⟩ := ih (fun g hg => h g (by simp [hg])) (fun g hg => hn' g (by simp [hg])) (fun g hg => hf' g (by simp [hg]))
      refine ⟨ps :: pss, ?_, by simp [a2, b2], ?_⟩
      · intro l hl
        rcases List.mem_cons.1 hl with rfl | hl
        · exact ⟨a0, a1⟩
        · exact b1 l hl
      · rw [List.flatMap_cons, a3, b3]
        split_ifs <;> simp
  obtain ⟨pss, a1, a2, a3⟩ := this
  have hs := Wp.sound_mpoly a1
  simp only [buildMulti, a2, a3]
  split_ifs with hz
  · exact hs
  · have : z = false ∧ m = false := by simpa using hz
    obtain ⟨rfl, rfl⟩ := this
    rwa [show pss.flatMap (·.flatMap (·.flatMap extraOf)) = [] by
      rw [List.flatMap_eq_nil_iff]; intro rs hrs; rw [List.flatMap_eq_nil_iff]; exact fun r hr => Wp.extras_none ((a1 rs hrs).2 r hr).2.1] at hs

theorem noNulls_mem {gs : List Geom} (h : NoNulls gs) : ∀ g ∈ gs, NoNull g := by
  induction gs with
  | nil => simp
  | cons g gs ih =>
    intro g' hg
    rcases List.mem_cons.1 hg with rfl | hg
    · exact h.1
    · exact ih h.2 g' hg

theorem fullRingss_mem {gs : List Geom} (h : FullRingss gs) : ∀ g ∈ gs, FullRings g := by
  induction gs with
  | nil => simp
  | cons g gs ih =>
    intro g' hg
    rcases List.mem_cons.1 hg with rfl | hg
    · exact h.1
    · exact ih h.2 g' hg

theorem coll_bin {gs : List Geom} (h : ∀ g ∈ gs, NoNull g → FullRings g → Sound g) (fl : Flags) (hz : fl.hasZ = false) (hm : fl.hasM = false) (cs : List F64) (x : Option (List Byte)) :
    BinRes (.coll fl true gs cs x) := by
  refine ⟨fun h => by (cases h), fun h => by (cases h), fun hn hf => ?_⟩
  refine Wp.sound_coll hz hm (fun g hg => h g hg ?_ ?_) cs x
  · exact noNulls_mem (hn.resolve_left (by simp)) g hg
  · exact fullRingss_mem hf g hg

theorem parseMulti_bin {child : Nat → R Geom} (hc : ∀ i j g, child i = .ok j g → BinRes g) {t : GType} {want : Option GType} {z m : Bool} {data : List Byte} {i : Nat} {swap : Bool}
    {j : Nat} {g : Geom} (ht : (t, want) = (.multipoint, some .point) ∨ (t, want) = (.multilinestring, some .linestring) ∨ (t, want) = (.multipolygon, some .polygon) ∨ (t, want) = (.collection, none))
    (h : parseMulti child t want z m data i swap = .ok j g) : BinRes g := by
  unfold parseMulti at h
  obtain ⟨c, h⟩ := readU32_ok h (by simp)
  split at h
  · cases h
  · cases h
  · rename_i j' gs h1
    cases h
    have hb := childLoop_bin hc _ _ _ _ h1
    rcases ht with ht | ht | ht | ht <;> cases ht
    · exact ⟨fun h => by (cases h), fun h => by (cases h), fun _ _ => mpoint_bin gs⟩
    · exact ⟨fun h => by (cases h), fun h => by (cases h), fun hn _ => mline_bin gs hb hn⟩
    · exact ⟨fun h => by (cases h), fun h => by (cases h), fun hn hf => mpoly_bin gs hb hn hf⟩
    · exact coll_bin (fun g hg => (hb g hg).1.2.2) {} rfl rfl _ _

theorem parseBody_bin {child : Nat → R Geom} (hc : ∀ i j g, child i = .ok j g → BinRes g) {data : List Byte} {i : Nat} {swap : Bool} {j : Nat} {g : Geom}
    (h : parseBody child data i swap = .ok j g) : BinRes g := by
  have hd : ∀ type i j g, wkbDispatch child type data i swap = .ok j g → BinRes g := by
    intro type i j g h
    unfold wkbDispatch at h
    split at h
    · cases h
    · exact parsePoint_bin h
    · exact parseLine_bin h
    · exact parsePoly_bin h
    · exact parseMulti_bin hc (by simp) h
    · exact parseMulti_bin hc (by simp) h
    · exact parseMulti_bin hc (by simp) h
    · exact parseMulti_bin hc (by simp) h
  unfold parseBody at h
  obtain ⟨w, h⟩ := readU32_ok h (by simp)
  dsimp only at h
  split_ifs at h
  · obtain ⟨w', h⟩ := readU32_ok h (by simp)
    exact hd _ _ _ _ h
  · exact hd _ _ _ _ h

theorem parseWkb_bin : ∀ (r : Nat) (data : List Byte) (i j : Nat) (g : Geom), parseWkb r data i = .ok j g → BinRes g := by
  intro r
  induction r with
  | zero =>
    intro data i j g h
    rw [parseWkb] at h
    split_ifs at h
    split at h <;> cases h
  | succ r ih =>
    intro data i j g h
    rw [parseWkb] at h
    split_ifs at h
    split at h
    · cases h
    · split_ifs at h
      exact parseBody_bin (ih data) h

/-! ### GeoBIN -/

/-- Without errors inside, NULL pointers and empty rings. -/
def GeobinRes (g : Geom) : Prop := noErr g → NoNull g → FullRings g → Sound g

theorem wrap_res {g : Geom} (h : GeobinRes g) : GeobinRes (wrapGeom g) := by
  cases g <;> try exact h
  · rename_i fl p
    exact fun _ _ _ => Wp.sound_point (z := false) (m := false) (p := [p.x, p.y]) rfl rfl trivial trivial
  · rename_i fl l
    intro _ _ _
    obtain ⟨v, h1, h2, h3, h4⟩ := h (by simp [noErr]) trivial trivial
    simp only [view] at h1
    split_ifs at h1
    cases h1
    exact ⟨_, rfl, h2, .inr (by simp), .inr (by simpa [Filled] using h4)⟩
  · rename_i fl p
    intro _ _ hf
    obtain ⟨v, h1, h2, h3, h4⟩ := h (by simp [noErr]) trivial (hf p rfl)
    simp only [view] at h1
    split_ifs at h1
    cases h1
    exact ⟨_, rfl, h2, .inr (by simp), trivial⟩

theorem feat_res {g : Geom} (h : GeobinRes g) : GeobinRes (g.mapFlags (fun fl => { fl with isFeature := true })) := by
  cases g <;> try exact h
  all_goals
    intro h1 h2 h3
    obtain ⟨v, a1, a2, a3, a4⟩ := h (by simpa [noErr, Geom.mapFlags] using h1) h2 h3
    refine ⟨v, ?_, a2, a3, a4⟩
    rw [← a1]
    simp only [Geom.mapFlags, view]

theorem setX_res {g : Geom} (x : List Byte) (h : GeobinRes g) : GeobinRes (g.setXjson x) := by
  cases g <;> try exact h
  all_goals
    intro h1 h2 h3
    obtain ⟨v, a1, a2, a3, a4⟩ := h (by simpa [noErr, Geom.setXjson] using h1) h2 h3
    refine ⟨v, ?_, a2, a3, a4⟩
    rw [← a1]
    simp only [Geom.setXjson, view]

theorem finish_res {head : Byte} {x : List Byte} {g : Geom} (h : GeobinRes g) : GeobinRes (finishGeobin head x g) := by
  unfold finishGeobin
  dsimp only
  have h1 : GeobinRes (if x ≠ [] ∨ head = 3#8 then wrapGeom g else g) := by
    by_cases c : x ≠ [] ∨ head = 3#8
    · rw [if_pos c]; exact wrap_res h
    · rw [if_neg c]; exact h
  generalize (if x ≠ [] ∨ head = 3#8 then wrapGeom g else g) = g1 at h1
  have h2 : GeobinRes (if head = 3#8 then g1.mapFlags (fun fl => { fl with isFeature := true }) else g1) := by
    by_cases c : head = 3#8
    · rw [if_pos c]; exact feat_res h1
    · rw [if_neg c]; exact h1
  generalize (if head = 3#8 then g1.mapFlags (fun fl => { fl with isFeature := true }) else g1) = g2 at h2
  by_cases c : x ≠ []
  · rw [if_pos c]; exact setX_res x h2
  · rw [if_neg c]; exact h2

theorem featLoop_res {child : Nat → R Geom} (hc : ∀ i j g, child i = .ok j g → GeobinRes g) :
    ∀ (c i j : Nat) (gs : List Geom), featLoop child c i = .ok j gs → ∀ g ∈ gs, GeobinRes g := by
  intro c
  induction c with
  | zero => intro i j gs h; cases h; simp
  | succ c ih =>
    intro i j gs h
    rw [featLoop] at h
    split at h
    · cases h
    · cases h
    · split at h
      · cases h
      · cases h
      · rename_i j'' gs' h3
        cases h
        intro g' hg
        rcases List.mem_cons.1 hg with rfl | hg
        · intro h; simp [noErr] at h
        · exact ih _ _ _ h3 _ hg
    · rename_i j' g h1
      split at h
      · cases h
      · cases h
      · rename_i j'' gs' h3
        cases h
        intro g' hg
        rcases List.mem_cons.1 hg with rfl | hg
        · exact hc _ _ _ h1
        · exact ih _ _ _ h3 _ hg

theorem parseFc_res {child : Nat → R Geom} (hc : ∀ i j g, child i = .ok j g → GeobinRes g) {data : List Byte} {i j : Nat} {g : Geom} (h : parseFc child data i = .ok j g) : GeobinRes g := by
  unfold parseFc at h
  obtain ⟨c, h⟩ := readU32_ok h (by simp)
  split at h
  · cases h
  · cases h
  · rename_i j' gs h1
    cases h
    have hb := featLoop_res hc _ _ _ _ h1
    intro he hn hf
    have he' : ∀ g ∈ gs, noErr g := by simpa [noErr] using he
    exact (coll_bin (fun g hg => hb g hg (he' g hg)) _ rfl rfl _ _).2.2 hn hf

theorem tail_res {child wkb : Nat → R Geom} (hc : ∀ i j g, child i = .ok j g → GeobinRes g) (hw : ∀ i j g, wkb i = .ok j g → GeobinRes g) {head : Byte} {x data : List Byte} {i j : Nat} {g : Geom}
    (h : parseGeobinTail child wkb head x data i = .ok j g) : GeobinRes g := by
  unfold parseGeobinTail at h
  split at h
  · cases h
  · cases h
  · rename_i j' g' h1
    cases h
    apply finish_res
    by_cases c : head = 4#8
    · rw [if_pos c] at h1; exact parseFc_res hc h1
    · rw [if_neg c] at h1; exact hw _ _ _ h1

theorem json_res {child wkb : Nat → R Geom} (hc : ∀ i j g, child i = .ok j g → GeobinRes g) (hw : ∀ i j g, wkb i = .ok j g → GeobinRes g) {head : Byte} {data : List Byte} {i j : Nat} {g : Geom}
    (h : parseGeobinJson child wkb head data i = .ok j g) : GeobinRes g := by
  unfold parseGeobinJson at h
  dsimp only at h
  generalize (if i + ((data.drop i).takeWhile (· ≠ 0#8)).length < data.length then i + ((data.drop i).takeWhile (· ≠ 0#8)).length + 1 else i + ((data.drop i).takeWhile (· ≠ 0#8)).length) = k at h
  by_cases h0 : k = data.length
  · rw [if_pos h0] at h; cases h
  rw [if_neg h0] at h
  by_cases h1 : (data.drop i).takeWhile (· ≠ 0#8) ≠ []
  · rw [if_pos h1] at h
    split at h
    · cases h
    · cases h
    · exact tail_res hc hw h
  · rw [if_neg h1] at h
    exact tail_res hc hw h

theorem mbr_res {child wkb : Nat → R Geom} (hc : ∀ i j g, child i = .ok j g → GeobinRes g) (hw : ∀ i j g, wkb i = .ok j g → GeobinRes g) {head : Byte} {data : List Byte} {i j : Nat} {g : Geom}
    (h : parseGeobinMbr child wkb head data i = .ok j g) : GeobinRes g := by
  unfold parseGeobinMbr at h
  by_cases h0 : head < 2#8 ∨ 4#8 < head
  · rw [if_pos h0] at h; cases h
  rw [if_neg h0] at h
  by_cases h1 : i = data.length
  · rw [if_pos h1] at h; cases h
  rw [if_neg h1] at h
  split at h
  · cases h
  · rename_i d l hd
    dsimp only at h
    by_cases h2 : d.toNat ≠ 0
    · rw [if_pos h2] at h
      by_cases h3 : d.toNat < 2 ∨ 4 < d.toNat
      · rw [if_pos h3] at h; cases h
      rw [if_neg h3] at h
      by_cases h4 : i + 1 + 8 * d.toNat * 2 ≥ data.length
      · rw [if_pos h4] at h; cases h
      rw [if_neg h4] at h
      exact json_res hc hw h
    · rw [if_neg h2] at h
      exact json_res hc hw h

theorem parseGeobin_res : ∀ (r : Nat) (data : List Byte) (i j : Nat) (g : Geom), parseGeobin r data i = .ok j g → GeobinRes g := by
  intro r
  induction r with
  | zero => intro data i j g h; cases h
  | succ r ih =>
    intro data i j g h
    rw [parseGeobin] at h
    have hw : ∀ i j g, parseWkb (r + 1) data i = .ok j g → GeobinRes g := fun i j g h _ => (parseWkb_bin _ _ _ _ _ h).2.2
    by_cases h0 : i = data.length
    · rw [if_pos h0] at h; cases h
    rw [if_neg h0] at h
    split at h
    · cases h
    · rename_i head l hd
      by_cases h1 : head = 1#8
      · rw [if_pos h1] at h; exact hw _ _ _ h
      · rw [if_neg h1] at h; exact mbr_res (ih data) hw h

theorem tgParseWkb_sound {data : List Byte} {g : Geom} (h : tgParseWkb data = .geom g) (hn : NoNull g) (hf : FullRings g) : Sound g := by
  unfold tgParseWkb at h
  split at h <;> cases h
  rename_i h
  exact (parseWkb_bin _ _ _ _ _ h).2.2 hn hf

theorem tgParseGeobin_sound {data : List Byte} {g : Geom} (h : tgParseGeobin data = .geom g) (he : noErr g) (hn : NoNull g) (hf : FullRings g) : Sound g := by
  unfold tgParseGeobin at h
  split at h <;> cases h
  rename_i h
  exact parseGeobin_res _ _ _ _ _ h he hn hf

end Tg
