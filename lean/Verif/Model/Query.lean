import Verif.Model.Predicates
/-! Queries with a point or a rectangle: `tg_geom_covers_point`, `tg_geom_covers_xy`, `tg_geom_intersects_point`, `tg_geom_intersects_xy`,
`tg_geom_intersects_rect`. -/
namespace Tg.S

variable {α β : Type*} [LinearOrder α] [LinearOrder β] (P : Par α β)

/-- `tg_geom_covers_point`, tg.c:6524-6532: the point is put into a `struct boxed_point` on the stack. -/
def geoCoversPoint (a : Geo α β) (b : Pt α) : Option Bool := geoCovers P a (.atom (.point b))

/-- `tg_geom_covers_xy`, tg.c:6534-6538. -/
def geoCoversXy (a : Geo α β) (x y : α) : Option Bool := geoCoversPoint P a ⟨x, y⟩

/-- `tg_geom_intersects_point`, tg.c:6540-6548. -/
def geoIntersectsPoint [Zero α] (a : Geo α β) (b : Pt α) : Option Bool := geoIntersects P a (.atom (.point b))

/-- `tg_geom_intersects_xy`, tg.c:6550-6554. -/
def geoIntersectsXy [Zero α] (a : Geo α β) (x y : α) : Option Bool := geoIntersectsPoint P a ⟨x, y⟩

/-- `tg_geom_intersects_rect`, tg.c:15277-15281: `rect_to_ring` fills a ring on the stack that has room for five points. -/
def geoIntersectsRect [Zero α] (a : Geo α β) (b : Rect α) : Option Bool := geoIntersects P a (.atom (.poly (.ring ⟨rectToRing b, true, false⟩)))

end Tg.S
