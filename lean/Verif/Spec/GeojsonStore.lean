import Verif.Spec.Geojson
/-!
What a geometry, a Feature or a FeatureCollection stores besides the coordinates, and which of it can be written as GeoJSON.
-/
namespace Tg.Spec.Geojson
open Json

/-- Members of JSON, none of which has one of these names. -/
def Foreign (names : List String) (ms : List (List Byte × List Byte)) : Prop :=
  ∀ m ∈ ms, Str m.1 ∧ (∃ n, Val Str n m.2) ∧ ∀ s ∈ names, ¬ Named m.1 s

/-- Extra JSON of an object whose own members have these names. -/
def Stores (names : List String) (x : Option (List Byte)) : Prop := ∃ ms, Foreign names ms ∧ x = extraText ms

mutual
/-- A geometry with foreign members, in which what is marked as empty is empty. Whether it is a Feature is not looked at, but nothing inside is one. -/
def Dressed : Geom → Prop
  | .point _ _ | .line _ _ | .poly _ _ => True
  | .gpoint _ _ _ _ x | .gline _ _ _ x | .gpoly _ _ _ x => Stores ["type", "coordinates"] x
  | .mpoint fl ps _ x => Stores ["type", "coordinates"] x ∧ (fl.isEmpty = true → ps.getD [] = [])
  | .mline fl ls _ x => Stores ["type", "coordinates"] x ∧ (fl.isEmpty = true → ls.getD [] = [])
  | .mpoly fl ps _ x => Stores ["type", "coordinates"] x ∧ (fl.isEmpty = true → ps.getD [] = [])
  | .coll fl hasMulti gs _ x => Stores ["type", "geometries"] x ∧ fl.isFeatureCol = false ∧ (fl.isEmpty = true ∨ hasMulti = false → gs = []) ∧ Dresseds gs
  | .err _ => False
/-- Every child. -/
def Dresseds : List Geom → Prop
  | [] => True
  | g :: gs => g.flags.isFeature = false ∧ Dressed g ∧ Dresseds gs
end

/-- A Feature with the members `fm`, and `x` those of its geometry. The names `id` and `properties` are spelled without escapes. -/
structure Stored (g : Geom) (fm : List (List Byte × List Byte)) (x : Option (List Byte)) : Prop where
  feature : g.flags.isFeature = true
  single : g.flags.isFeatureCol = false
  extra : extraOf g = both (extraText fm) x
  foreign : Foreign ["type", "geometry"] fm
  members : FeatureMembers fm
  spelled : ∀ m ∈ fm, (Named m.1 "id" → m.1 = txt "\"id\"") ∧ (Named m.1 "properties" → m.1 = txt "\"properties\"")
  said : ∀ m ∈ fm, Named m.1 "properties" → m.2 ≠ txt "null" ∧ ¬ IsObj [] m.2
  nulls : g.flags.nullProps = true → ∀ m ∈ fm, ¬ Named m.1 "properties"
  geometry : if g.flags.unlocated = true then x = none ∧ view g = some (.point false false none) else Dressed (withExtra x g)

/-- A FeatureCollection of such Features. -/
def StoredAll (g : Geom) : Prop :=
  ∃ fl gs x, g = .coll fl true gs [] x ∧ fl.isFeatureCol = true ∧ fl.isFeature = false ∧ fl.nullProps = false ∧ fl.unlocated = false ∧ (fl.isEmpty = true → gs = []) ∧
    Stores ["type", "features"] x ∧ ∀ f ∈ gs, ∃ fm fx, Stored f fm fx

open Classical in
/-- The members with the id before the others. -/
noncomputable def idFirst (ms : List (List Byte × List Byte)) : List (List Byte × List Byte) :=
  ms.filter (fun m => decide (Named m.1 "id")) ++ ms.filter (fun m => decide (¬ Named m.1 "id"))

mutual
/-- Both have the same extra JSON, and so do the geometries in them. -/
def SameExtra : Geom → Geom → Prop
  | .coll _ _ gs _ x, g' => ∃ fl h gs' c, g' = .coll fl h gs' c x ∧ SameExtras gs gs'
  | g, g' => extraOf g = extraOf g'
/-- One by one. -/
def SameExtras : List Geom → List Geom → Prop
  | [], gs' => gs' = []
  | g :: gs, gs' => ∃ h hs, gs' = h :: hs ∧ SameExtra g h ∧ SameExtras gs hs
end

/-- `g'` is the Feature `g` with its members `fm`, the id first, and with the members `x` of its geometry. -/
def Again (g : Geom) (fm : List (List Byte × List Byte)) (x : Option (List Byte)) (g' : Geom) : Prop :=
  extraOf g' = both (extraText (idFirst fm)) x ∧ g'.flags.isFeature = true ∧ g'.flags.isFeatureCol = false ∧ g'.flags.nullProps = g.flags.nullProps ∧
    g'.flags.unlocated = g.flags.unlocated ∧ SameExtra (withExtra x g) (withExtra x g')

/-- The members `id` and `properties` of the object are spelled without escapes. -/
def SpelledIn (t : List Byte) : Prop :=
  ∀ ms, IsObj ms t → ∀ m ∈ ms, (Named m.1 "id" → m.1 = txt "\"id\"") ∧ (Named m.1 "properties" → m.1 = txt "\"properties\"")

/-- And so are those of the objects in the array `features`. -/
def SpelledAll (t : List Byte) : Prop :=
  ∀ ms c ts, IsObj ms t → Member ms "features" c → IsArr ts c → (∀ u ∈ ts, ∃ n, Val Str n u) → ∀ u ∈ ts, SpelledIn u

end Tg.Spec.Geojson
