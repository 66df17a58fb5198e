import Verif.Spec.Json
import Verif.Spec.Wkt
/-!
Specification of the texts that are GeoJSON (RFC 7946): JSON objects with the members `type`, `coordinates`, `geometries`, `geometry`, `features`, in any order, with any other members
and with white space. `N t x` says that `t` is a number text read as `x`.
-/
namespace Tg.Spec.Geojson
open Json

/-! ### Parts of a JSON text -/

/-- One or more comma separated items, with white space around each. -/
inductive Items : List (List Byte) → List Byte → Prop
  | one (w v w') : Ws w → Ws w' → Items [v] (w ++ (v ++ w'))
  | cons (w v w' l vs) : Ws w → Ws w' → Items vs l → Items (v :: vs) (w ++ (v ++ (w' ++ 0x2C#8 :: l)))

/-- `t` is the array of `vs`. -/
def IsArr (vs : List (List Byte)) (t : List Byte) : Prop :=
  ∃ l, ((vs = [] ∧ Ws l) ∨ Items vs l) ∧ t = 0x5B#8 :: (l ++ [0x5D#8])

/-- One or more comma separated pairs of a key and a value. -/
inductive Pairs : List (List Byte × List Byte) → List Byte → Prop
  | one (w k w1 w2 v w3) : Ws w → Ws w1 → Ws w2 → Ws w3 → Pairs [(k, v)] (w ++ (k ++ (w1 ++ 0x3A#8 :: (w2 ++ (v ++ w3)))))
  | cons (w k w1 w2 v w3 l ms) : Ws w → Ws w1 → Ws w2 → Ws w3 → Pairs ms l →
      Pairs ((k, v) :: ms) (w ++ (k ++ (w1 ++ 0x3A#8 :: (w2 ++ (v ++ (w3 ++ 0x2C#8 :: l))))))

/-- `t` is the object with the members `ms`, in this order. Keys are strings and values are values of JSON. -/
def IsObj (ms : List (List Byte × List Byte)) (t : List Byte) : Prop :=
  (∀ m ∈ ms, Str m.1 ∧ ∃ n, Val Str n m.2) ∧ ∃ l, ((ms = [] ∧ Ws l) ∨ Pairs ms l) ∧ t = 0x7B#8 :: (l ++ [0x7D#8])

/-- The value of a hexadecimal digit. -/
def hexDigit (b : Byte) : Nat :=
  if b.toNat ≤ 0x39 then b.toNat - 0x30 else if b.toNat ≤ 0x46 then b.toNat - 0x41 + 10 else b.toNat - 0x61 + 10

/-- The ASCII text `s`, in which characters may be escaped (RFC 8259 section 7). -/
inductive Spells : List Byte → List Byte → Prop
  | nil : Spells [] []
  | plain (b cs s) : b ≠ 0x5C#8 → Spells cs s → Spells (b :: cs) (b :: s)
  | esc (b c cs s) : (b, c) ∈ ([(0x22, 0x22), (0x5C, 0x5C), (0x2F, 0x2F), (0x62, 0x08), (0x66, 0x0C), (0x6E, 0x0A), (0x72, 0x0D), (0x74, 0x09)] : List (Byte × Byte)) →
      Spells cs s → Spells (0x5C#8 :: b :: cs) (c :: s)
  | uni (a b c d e : Byte) (cs s) : HexDigit a → HexDigit b → HexDigit c → HexDigit d → e.toNat < 0x80 →
      hexDigit a * 4096 + hexDigit b * 256 + hexDigit c * 16 + hexDigit d = e.toNat →
      Spells cs s → Spells (0x5C#8 :: 0x75#8 :: a :: b :: c :: d :: cs) (e :: s)

/-- The string token `k` is the text `s`. -/
def Named (k : List Byte) (s : String) : Prop := ∃ cs, k = 0x22#8 :: (cs ++ [0x22#8]) ∧ Spells cs (txt s)

/-- `v` is the value of the only member with the name `s`. -/
def Member (ms : List (List Byte × List Byte)) (s : String) (v : List Byte) : Prop :=
  ∃ a k b, ms = a ++ (k, v) :: b ∧ Named k s ∧ ∀ m ∈ a ++ b, ¬ Named m.1 s

/-- An object of the type `name` with the member `field`. -/
def TypeObj (name field : String) (c t : List Byte) : Prop :=
  ∃ ms ty, IsObj ms t ∧ Member ms "type" ty ∧ Named ty name ∧ Member ms field c

/-! ### Geometries -/

variable (N : List Byte → F64 → Prop)

/-- A position: two or more numbers, of which only the first four count. -/
def IsPosn (p : List F64) (t : List Byte) : Prop := ∃ ts, IsArr ts t ∧ (∀ n ∈ ts, IsNumber n) ∧ List.Forall₂ N (ts.take 4) p
/-- An array. -/
def IsList {α : Type} (I : α → List Byte → Prop) (l : List α) (t : List Byte) : Prop := ∃ ts, IsArr ts t ∧ List.Forall₂ I l ts
/-- `[[1,2],[3,4]]` -/
def IsSeries : List (List F64) → List Byte → Prop := IsList (IsPosn N)
/-- Arrays of series. -/
def IsRings : List (List (List F64)) → List Byte → Prop := IsList (IsSeries N)
/-- Arrays of polygons. -/
def IsPolys : List (List (List (List F64))) → List Byte → Prop := IsList (IsRings N)

mutual
/-- `t` is a geometry object of the geometry, RFC 7946 section 3.1. -/
def IsGeometry : GV → List Byte → Prop
  | .point _ _ (some p), t => ∃ c, TypeObj "Point" "coordinates" c t ∧ IsPosn N p c
  | .point _ _ none, t => ∃ c, TypeObj "Point" "coordinates" c t ∧ IsArr [] c
  | .line _ _ ps, t => ∃ c, TypeObj "LineString" "coordinates" c t ∧ IsSeries N ps c
  | .poly _ _ rs, t => ∃ c, TypeObj "Polygon" "coordinates" c t ∧ IsRings N rs c
  | .mpoint _ _ ps, t => ∃ c, TypeObj "MultiPoint" "coordinates" c t ∧ IsSeries N ps c
  | .mline _ _ ls, t => ∃ c, TypeObj "MultiLineString" "coordinates" c t ∧ IsRings N ls c
  | .mpoly _ _ ps, t => ∃ c, TypeObj "MultiPolygon" "coordinates" c t ∧ IsPolys N ps c
  | .coll gs, t => ∃ c ts, TypeObj "GeometryCollection" "geometries" c t ∧ IsArr ts c ∧ AreGeometries gs ts
/-- One text for each. -/
def AreGeometries : List GV → List (List Byte) → Prop
  | [], ts => ts = []
  | v :: vs, ts => ∃ t ts', ts = t :: ts' ∧ IsGeometry v t ∧ AreGeometries vs ts'
end

/-- `I` with white space around it. -/
def Around (I : List Byte → Prop) (d : List Byte) : Prop := ∃ w t w', Ws w ∧ I t ∧ Ws w' ∧ d = w ++ (t ++ w')

/-! ### What can be said in GeoJSON -/

mutual
/-- The third number of a position is Z, so that there is no M without Z. -/
def ZFirst : GV → Prop
  | .point z m (some _) => m = true → z = true
  | .point _ _ none => True
  | .line z m ps => ps = [] ∨ (m = true → z = true)
  | .poly z m rs => rs = [] ∨ (m = true → z = true)
  | .mpoint z m ps => ps = [] ∨ (m = true → z = true)
  | .mline z m ls => ls = [] ∨ (m = true → z = true)
  | .mpoly z m ps => ps = [] ∨ (m = true → z = true)
  | .coll gs => ZFirsts gs
/-- Every member. -/
def ZFirsts : List GV → Prop
  | [] => True
  | v :: vs => ZFirst v ∧ ZFirsts vs
end

mutual
/-- The geometry as tg reads it: what is empty has lost its Z and M, and an empty MultiPoint, MultiLineString or MultiPolygon has got both. -/
def reread : GV → GV
  | .point z m (some p) => .point z m (some p)
  | .point _ _ none => .point false false none
  | .line z m ps => if ps = [] then .line false false [] else .line z m ps
  | .poly z m rs => if rs = [] then .poly false false [] else .poly z m rs
  | .mpoint z m ps => if ps = [] then .mpoint true true [] else .mpoint z m ps
  | .mline z m ls => if ls = [] then .mline true true [] else .mline z m ls
  | .mpoly z m ps => if ps = [] then .mpoly true true [] else .mpoly z m ps
  | .coll gs => .coll (rereads gs)
/-- Every member. -/
def rereads : List GV → List GV
  | [] => []
  | v :: vs => reread v :: rereads vs
end

mutual
/-- GeoJSON has no M without Z: what was M is Z. -/
def zForM : GV → GV
  | .point z m p => .point (z || m) (z && m) p
  | .line z m ps => .line (z || m) (z && m) ps
  | .poly z m rs => .poly (z || m) (z && m) rs
  | .mpoint z m ps => .mpoint (z || m) (z && m) ps
  | .mline z m ls => .mline (z || m) (z && m) ls
  | .mpoly z m ps => .mpoly (z || m) (z && m) ps
  | .coll gs => .coll (zForMs gs)
/-- Every member. -/
def zForMs : List GV → List GV
  | [] => []
  | v :: vs => zForM v :: zForMs vs
end

mutual
/-- How many levels of JSON the text of the geometry has. -/
def levels : GV → Nat
  | .point _ _ (some _) => 3
  | .point _ _ none => 2
  | .line _ _ ps | .mpoint _ _ ps => if ps = [] then 2 else 4
  | .poly _ _ rs | .mline _ _ rs => if rs = [] then 2 else 5
  | .mpoly _ _ ps => if ps = [] then 2 else 6
  | .coll gs => levelss gs + 2
/-- The most of any member. -/
def levelss : List GV → Nat
  | [] => 0
  | v :: vs => max (levels v) (levelss vs)
end

/-! ### Foreign members -/

open Classical in
/-- The members that have none of these names. -/
noncomputable def others (names : List String) (ms : List (List Byte × List Byte)) : List (List Byte × List Byte) :=
  ms.filter fun m => decide (∀ s ∈ names, ¬ Named m.1 s)

/-- Members as an object, without white space; nothing if there are none. -/
def extraText (ms : List (List Byte × List Byte)) : Option (List Byte) :=
  if ms = [] then none else some (bracket 0x7B#8 0x7D#8 (ms.map fun m => m.1 ++ 0x3A#8 :: m.2))

/-- The extra JSON that is stored with a geometry. -/
def extraOf : Geom → Option (List Byte)
  | .gpoint _ _ _ _ x | .gline _ _ _ x | .gpoly _ _ _ x | .mpoint _ _ _ x | .mline _ _ _ x | .mpoly _ _ _ x | .coll _ _ _ _ x => x
  | _ => none

mutual
/-- The geometry and every geometry in it has the foreign members of its object, as they were written and in their order. -/
def Keeps : List Byte → Geom → Prop
  | t, .coll _ _ gs _ x => ∃ ms c ts, IsObj ms t ∧ Member ms "geometries" c ∧ IsArr ts c ∧ x = extraText (others ["type", "geometries"] ms) ∧ KeepAll ts gs
  | t, g => ∃ ms, IsObj ms t ∧ extraOf g = extraText (others ["type", "coordinates"] ms)
/-- Each has the members of its object. -/
def KeepAll : List (List Byte) → List Geom → Prop
  | ts, [] => ts = []
  | ts, g :: gs => ∃ t ts', ts = t :: ts' ∧ Keeps t g ∧ KeepAll ts' gs
end

/-! ### Features -/

/-- No two members have this name. -/
def Once (ms : List (List Byte × List Byte)) (s : String) : Prop := ms.Pairwise fun m m' => ¬ (Named m.1 s ∧ Named m'.1 s)

/-- The members `properties` and `id`, if there are any: an object or null, and a string or a number (RFC 7946 section 3.2). -/
def FeatureMembers (ms : List (List Byte × List Byte)) : Prop :=
  Once ms "properties" ∧ Once ms "id" ∧
  ∀ m ∈ ms, (Named m.1 "properties" → m.2 = txt "null" ∨ ∃ ms', IsObj ms' m.2) ∧ (Named m.1 "id" → Str m.2 ∨ IsNumber m.2)

/-- `t` is a Feature with this geometry, or with null. -/
def IsFeature (f : Option GV) (t : List Byte) : Prop :=
  ∃ ms ty c, IsObj ms t ∧ Member ms "type" ty ∧ Named ty "Feature" ∧ Member ms "geometry" c ∧ FeatureMembers ms ∧
    match f with
    | none => c = txt "null"
    | some v => IsGeometry N v c

/-- `t` is a FeatureCollection of these Features. -/
def IsFeatures (fs : List (Option GV)) (t : List Byte) : Prop :=
  ∃ c ts, TypeObj "FeatureCollection" "features" c t ∧ IsArr ts c ∧ List.Forall₂ (IsFeature N) fs ts

/-- What is seen of the geometry of a Feature; a Feature without one is an empty point. -/
def shown : Option GV → GV
  | none => .point false false none
  | some v => reread v

open Classical in
/-- The members of a Feature that are stored: not the type, not the geometry, and no properties that say nothing. -/
noncomputable def kept (ms : List (List Byte × List Byte)) : List (List Byte × List Byte) :=
  ms.filter fun m => decide (¬ Named m.1 "type" ∧ ¬ Named m.1 "geometry" ∧ ¬ (Named m.1 "properties" ∧ (m.2 = txt "null" ∨ IsObj [] m.2)))

/-- The extra JSON of a Feature with the extra members `f`, and `x` those of its geometry. -/
def both (f x : Option (List Byte)) : Option (List Byte) :=
  match x with
  | none => f
  | some x => some (bracket 0x5B#8 0x5D#8 [f.getD (txt "{}"), x])

/-- The geometry with other extra JSON. -/
def withExtra (x : Option (List Byte)) : Geom → Geom
  | .gpoint fl p z m _ => .gpoint fl p z m x
  | .gline fl l c _ => .gline fl l c x
  | .gpoly fl l c _ => .gpoly fl l c x
  | .mpoint fl l c _ => .mpoint fl l c x
  | .mline fl l c _ => .mline fl l c x
  | .mpoly fl l c _ => .mpoly fl l c x
  | .coll fl h gs c _ => .coll fl h gs c x
  | g => g

/-- The flags and the extra JSON are those of the Feature `t`. -/
def FeatureKeeps (t : List Byte) (g : Geom) : Prop :=
  ∃ ms c x, IsObj ms t ∧ Member ms "geometry" c ∧ extraOf g = both (extraText (kept ms)) x ∧
    g.flags.isFeature = true ∧ g.flags.isFeatureCol = false ∧ (g.flags.nullProps = true ↔ ∃ m ∈ ms, Named m.1 "properties" ∧ m.2 = txt "null") ∧ (g.flags.unlocated = true ↔ c = txt "null") ∧
    (if c = txt "null" then x = none else Keeps c (withExtra x g))

/-- The FeatureCollection `t` is a collection of its Features, with its own foreign members. -/
def CollectionKeeps (t : List Byte) (g : Geom) : Prop :=
  ∃ ms c ts fl gs, IsObj ms t ∧ Member ms "features" c ∧ IsArr ts c ∧ g = .coll fl true gs [] (extraText (others ["type", "features"] ms)) ∧
    fl.isFeatureCol = true ∧ fl.isFeature = false ∧ fl.nullProps = false ∧ fl.unlocated = false ∧ List.Forall₂ FeatureKeeps ts gs

end Tg.Spec.Geojson
