import Verif.Spec.MadeBy
/-!
`tg_point_move`, `tg_segment_move`, `tg_rect_move`, `tg_line_move`, `tg_ring_move` and `tg_poly_move`. The addition is a parameter; allocations succeed, also
`tg_malloc(0)` for a series without points, for which `series_move` returns NULL if it does not.
-/
namespace Tg.S

variable {α β : Type*} [LinearOrder α] [LinearOrder β] [Zero α]

/-- `tg_point_move`, tg.c:1257-1261. -/
def ptMove (add : α → α → α) (d : Pt α) (p : Pt α) : Pt α := ⟨add p.x d.x, add p.y d.y⟩

/-- `tg_segment_move`, tg.c:1263-1270. -/
def segMove (add : α → α → α) (d : Pt α) (s : Seg α) : Seg α := ⟨ptMove add d s.a, ptMove add d s.b⟩

/-- `tg_rect_move`, tg.c:3129-3135. -/
def rectMove (add : α → α → α) (d : Pt α) (r : Rect α) : Rect α := ⟨ptMove add d r.lo, ptMove add d r.hi⟩

/-- The index option of the new series, tg.c:2232-2239. -/
def moveIx (r : Ring α β) : BitVec 32 := if r.ystripes.isSome then 3#32 else if r.index.isSome then 2#32 else 1#32

/-- `series_move`, tg.c:2223-2243. -/
def seriesMove (C : Maker α β) (add : α → α → α) (e : Env) (r : Ring α β) (closed : Bool) (d : Pt α) : Option (Ring α β) :=
  newIx C.f C.A e ((r.points.take r.npoints).map (ptMove add d)) closed (moveIx r)

/-- `tg_line_move`, tg.c:3629-3634. -/
def lineMove (C : Maker α β) (add : α → α → α) (e : Env) (l : Ring α β) (d : Pt α) : Option (Ring α β) := seriesMove C add e l false d

/-- `tg_ring_move`, tg.c:3271-3275, with the flags that `series_new` computes. -/
def ringMove (C : Maker α β) (add : α → α → α) (e : Env) (r : FRing α β) (d : Pt α) : Option (FRing α β) :=
  let pts := (r.ring.points.take r.ring.npoints).map (ptMove add d)
  match seriesMove C add e r.ring true d, C.convex pts, C.clockwise pts with
  | some ring, some cv, some cw => some ⟨ring, cv, cw⟩
  | _, _, _ => none

/-- `tg_poly_move`, tg.c:4223-4259. `tg_poly_new` returns the exterior if there are no holes. -/
def polyMove (C : Maker α β) (add : α → α → α) (e : Env) (d : Pt α) : PolyS α β → Option (PolyS α β)
  | .ring r => (ringMove C add e r d).map .ring
  | .poly ext holes =>
    match ringMove C add e ext d, holes.mapM fun h => ringMove C add e h d with
    | some ext, some holes => some (if holes = [] then .ring ext else .poly ext holes)
    | _, _ => none

/-- The move of a point, line or polygon. -/
def atomMove (C : Maker α β) (add : α → α → α) (e : Env) (d : Pt α) : Atom α β → Option (Atom α β)
  | .point p => some (.point (ptMove add d p))
  | .line l => (lineMove C add e l d).map .line
  | .poly q => (polyMove C add e d q).map .poly

end Tg.S
