import Verif.Lemmas.Built
/-! Property C45: a constructor that succeeds builds the object that was asked for. -/
namespace Tg
open Heap

/-- After any history, a constructor that does not return NULL has built exactly the object that
its arguments describe: points in order, children in order and shared, flags, extra coordinates. -/
theorem C45_built {fails : Nat → Bool} {ok : Heap → Op → Prop} {h h' : Heap}
    {own : Multiset Nat} (hr : Runs fails ok h own) {op : Op} (ha : Allowed h own op) {a : Nat}
    (hrun : op.run h = some (some a, h')) : h'.built a op := built_ok hr ha hrun

/-- Two points with a third coordinate each. -/
example : ∃ h' l, (Op.multipointZm [⟨1, 2⟩, ⟨3, 4⟩] [5, 6] { hasZ := true }).run
      (Heap.init fun _ => false) = some (some 0, h') ∧
    h'.isMultiOf 0 .multipoint { hasZ := true } l [5, 6] ∧ l = [some 3, some 4] ∧
    h'.cells 4 = some (.bpoint 1 ⟨3, 4⟩) :=
  ⟨_, _, rfl, ⟨1, 2, none, none, ⟨some 5, _, _, _, rfl, Or.inr ⟨by simp, 5, rfl, rfl⟩⟩, rfl, rfl, rfl, rfl⟩,
    rfl, rfl⟩

end Tg
