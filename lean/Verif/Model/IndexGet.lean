import Verif.Model.Predicates
/-! The functions that show the index of a ring, line or collection. A NULL index is `none`. -/
namespace Tg.S

variable {α β : Type*} [LinearOrder α] [LinearOrder β]

/-- `index_spread`, tg.c:1605-1607. -/
def indexSpread : Option (Index β) → Int
  | none => 0
  | some ix => ix.spread

/-- `index_num_levels`, tg.c:1609-1611. -/
def indexNumLevels : Option (Index β) → Int
  | none => 0
  | some ix => ix.levels.length

/-- `index_level_num_rects`, tg.c:1613-1617. -/
def indexLevelNumRects (ix : Option (Index β)) (levelidx : Int) : Int :=
  match ix with
  | none => 0
  | some ix => if levelidx < 0 ∨ (ix.levels.length : Int) ≤ levelidx then 0 else ((ix.levels[levelidx.toNat]?).getD []).length

/-- `index_level_rect`, tg.c:1619-1633; `none` is a read outside of the array of levels or rectangles. -/
def indexLevelRect [Zero α] (f : Ix α β) (ix : Option (Index β)) (levelidx rectidx : Int) : Option (Rect α) :=
  match ix with
  | none => some ⟨⟨0, 0⟩, ⟨0, 0⟩⟩
  | some ix =>
    if levelidx < 0 ∨ (ix.levels.length : Int) ≤ levelidx then some ⟨⟨0, 0⟩, ⟨0, 0⟩⟩
    else
      match ix.levels[levelidx.toNat]? with
      | none => none
      | some level =>
        if rectidx < 0 ∨ (level.length : Int) ≤ rectidx then some ⟨⟨0, 0⟩, ⟨0, 0⟩⟩
        else
          match level[rectidx.toNat]? with
          | none => none
          | some r => some (f.wideRect r)

/-- The index of a ring or line that may be NULL, tg.c:6642-6690, 3691-3739. -/
def ringIndexOf : Option (Ring α β) → Option (Index β)
  | none => none
  | some r => r.index

/-- `geom_multi_index`, tg.c:4628-4631: of a collection, and of nothing else. -/
def geoIndexOf : Geo α β → Option (Index β)
  | .multi _ _ _ ix _ => ix
  | _ => none

end Tg.S
