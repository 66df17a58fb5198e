import Verif.Lemmas.Accessors
import Verif.Lemmas.WkbTop
import Verif.Lemmas.WktSafe
import Verif.Lemmas.GeojsonAgain
/-! Every parser makes objects whose empty flag says the truth. -/
set_option linter.unusedSectionVars false
namespace Tg
open Spec

theorem straights_iff : ∀ {gs : List Geom}, Straights gs ↔ ∀ g ∈ gs, Straight g
  | [] => by simp [Straights]
  | g :: gs => by rw [Straights, straights_iff]; simp

/-! ### GeoJSON -/

mutual
theorem tidy_straight : ∀ {g : Geom}, Gp.Tidy g → Straight g
  | .point .., h | .line .., h | .poly .., h => by simpa only [Gp.Tidy, Straight] using h
  | .gpoint .., _ => by simp only [Straight]
  | .gline .., h | .gpoly .., h | .mpoint .., h | .mline .., h | .mpoly .., h => by simpa only [Gp.Tidy, Straight] using h
  | .coll .., h => by
    simp only [Gp.Tidy] at h
    exact ⟨fun _ => h.2.2.1, tidies_straight h.2.2.2.1⟩
  | .err _, _ => by simp only [Straight]
theorem tidies_straight : ∀ {gs : List Geom}, Gp.Tidies gs → Straights gs
  | [], _ => trivial
  | _ :: _, h => ⟨tidy_straight h.1, tidies_straight h.2⟩
end

theorem tgParseGeojson_straight {sd : List Byte → F64 × Nat} {data : List Byte} {g : Geom} (h : Gp.tgParseGeojson sd data = .geom g) : Straight g :=
  tidy_straight (Gp.tgParseGeojson_tidy h)

/-! ### WKB -/

theorem parsePoint_straight {z m data i swap j g} (h : parsePoint z m data i swap = .ok j g) : Straight g := by
  unfold parsePoint at h
  dsimp only at h
  split at h
  · cases h
  · split at h
    · cases h
    · split at h
      · cases h; trivial
      · cases h
        split <;> split <;> simp [Straight]

theorem parseLine_straight {z m data i swap j g} (h : parseLine z m data i swap = .ok j g) : Straight g := by
  unfold parseLine at h
  split at h
  · cases h
  · cases h
  · cases h
    split
    · simp [Straight]
    · split <;> simp [Straight, zmFlags]

theorem parsePoly_straight {z m data i swap j g} (h : parsePoly z m data i swap = .ok j g) : Straight g := by
  unfold parsePoly readU32 at h
  split at h
  · cases h
  · split at h
    · cases h
    · split at h <;> dsimp only at h <;> split at h
      · cases h
      · cases h
      · cases h
        split <;> simp [Straight, zmFlags]
      · cases h
      · cases h
      · cases h
        split <;> simp [Straight, zmFlags]

theorem childLoop_straight {child : Nat → R Geom} (hc : ∀ i j g, child i = .ok j g → Straight g) (want z m) (c : Nat) :
    ∀ i j gs, childLoop child want z m c i = .ok j gs → Straights gs := by
  induction c with
  | zero => intro i j gs h; simp only [childLoop] at h; cases h; trivial
  | succ c ih =>
    intro i j gs h
    rw [childLoop] at h
    split at h
    · cases h
    · cases h
    · split at h
      · cases h
      · split at h
        · cases h
        · cases h
        · rename_i h1 _ _ _ _ h2
          cases h
          exact ⟨hc _ _ _ h1, ih _ _ _ h2⟩

theorem parseMulti_straight {child : Nat → R Geom} (hc : ∀ i j g, child i = .ok j g → Straight g)
    {t want z m data i swap j g} (h : parseMulti child t want z m data i swap = .ok j g) : Straight g := by
  unfold parseMulti readU32 at h
  split at h
  · cases h
  · split at h
    · cases h
    · dsimp only at h
      split at h
      · cases h
      · cases h
      · rename_i hl
        cases h
        have := childLoop_straight hc _ _ _ _ _ _ _ hl
        unfold buildMulti
        cases t <;> simp [Straight, zmFlags, this]

theorem parseWkb_straight (data : List Byte) (r : Nat) : ∀ i j g, parseWkb r data i = .ok j g → Straight g := by
  induction r with
  | zero =>
    intro i j g h
    rw [parseWkb] at h
    split at h
    · cases h
    · split at h <;> cases h
  | succ r ih =>
    intro i j g h
    rw [parseWkb] at h
    have hd : ∀ ty i swap, wkbDispatch (parseWkb r data) ty data i swap = .ok j g → Straight g := by
      intro ty i swap h
      unfold wkbDispatch at h
      split at h
      · cases h
      · exact parsePoint_straight h
      · exact parseLine_straight h
      · exact parsePoly_straight h
      all_goals exact parseMulti_straight ih h
    split at h
    · cases h
    · split at h
      · cases h
      · split at h
        · cases h
        · unfold parseBody readU32 at h
          split at h
          · cases h
          · split at h
            · cases h
            · dsimp only at h
              split at h
              · split at h
                · cases h
                · split at h
                  · cases h
                  · exact hd _ _ _ h
              · exact hd _ _ _ h

theorem tgParseWkb_straight {data : List Byte} {g : Geom} (h : tgParseWkb data = .geom g) : Straight g := by
  unfold tgParseWkb at h
  split at h
  · cases h
  · cases h
  · rename_i hr
    cases h
    exact parseWkb_straight data _ _ _ _ hr

end Tg

/-! ### WKT -/
namespace Tg.Wp
open Spec
variable {sd : List Byte → F64}

theorem dimFlags_full (d : Nat) (m : Bool) : (dimFlags d m).isEmpty = false := by
  unfold dimFlags
  split_ifs <;> rfl

theorem collLoop_straight {child : List Byte → List Byte → P Geom} (hi : ∀ c after g, child c after = .ok g → Straight g) (after : List Byte) :
    ∀ (f : Nat) (l : List Byte) (r : Nat × List Geom), collLoop child after f l = .ok r → ∀ g ∈ r.2, Straight g := by
  intro f
  induction f with
  | zero => intro l r h; cases h
  | succ f ih =>
    intro l r h
    rw [collLoop.eq_def] at h
    cases l with
    | nil => simp only [P.ok.injEq] at h; subst h; simp
    | cons b t =>
      dsimp only at h
      cases hx : nextGeometry (b :: t) with
      | none => rw [hx] at h; cases h
      | some cr =>
        rw [hx] at h
        dsimp only at h
        obtain ⟨gs, h1, h⟩ := bind_ok h
        have hgs : ∀ g ∈ gs, Straight g := by
          split_ifs at h1
          · simp only [P.ok.injEq] at h1; subst h1; simp
          · obtain ⟨g, hg, h1⟩ := bind_ok h1
            simp only [P.ok.injEq] at h1; subst h1
            simpa using hi _ _ _ hg
        cases hr : trim cr.2 with
        | nil => rw [hr] at h; simp only [P.ok.injEq] at h; subst h; exact hgs
        | cons d u =>
          rw [hr] at h
          dsimp only at h
          split_ifs at h
          obtain ⟨q, hq, h⟩ := bind_ok h
          simp only [P.ok.injEq] at h; subst h
          intro g hg
          rcases List.mem_append.1 hg with hg | hg
          · exact hgs g hg
          · exact ih _ _ hq g hg

theorem parseWkt_straight (d : Nat) : ∀ (s after : List Byte) (g : Geom), parseWkt sd d s after = .ok g → Straight g := by
  induction d with
  | zero => intro s after g h; cases h
  | succ d ih =>
    intro s after g h
    rw [parseWkt.eq_def] at h
    dsimp only at h
    split_ifs at h
    split at h
    · cases h
    · cases h
    · cases h
    · split_ifs at h
      · simp only [P.ok.injEq] at h; subst h
        rename_i t z m _ _ _
        cases t <;> simp [emptyGeom, Straight, Straights]
      · split at h
        · cases h
        · split at h
          · cases h
          · split_ifs at h
            split at h
            · rw [parsePoint] at h
              dsimp only at h
              split at h
              · cases h
              · obtain ⟨ps, -, h⟩ := bind_ok h
                split_ifs at h <;> simp only [P.ok.injEq] at h <;> subst h <;> simp [Straight]
            · obtain ⟨a, -, h⟩ := bind_ok h
              simp only [P.ok.injEq] at h; subst h
              split_ifs <;> simp [Straight, dimFlags_full]
            · obtain ⟨a, -, h⟩ := bind_ok h
              simp only [P.ok.injEq] at h; subst h
              split_ifs <;> simp [Straight, dimFlags_full]
            · obtain ⟨a, -, h⟩ := bind_ok h
              simp only [P.ok.injEq] at h; subst h
              simp [Straight, dimFlags_full]
            · obtain ⟨a, -, h⟩ := bind_ok h
              simp only [P.ok.injEq] at h; subst h
              simp [Straight, dimFlags_full]
            · obtain ⟨a, -, h⟩ := bind_ok h
              simp only [P.ok.injEq] at h; subst h
              simp [Straight, dimFlags_full]
            · rw [parseColl] at h
              obtain ⟨a, ha, h⟩ := bind_ok h
              split_ifs at h
              simp only [P.ok.injEq] at h; subst h
              exact ⟨fun _ h => by simp at h, straights_iff.2 (collLoop_straight (fun c after g h => ih c after g h) _ _ _ _ ha)⟩

theorem tgParseWkt_straight {data : List Byte} {g : Geom} (h : tgParseWkt sd data = .geom g) : Straight g := by
  unfold tgParseWkt at h
  split at h
  · cases h
  · cases h
  · rename_i g' hg
    cases h
    exact parseWkt_straight _ _ _ _ hg

end Tg.Wp
