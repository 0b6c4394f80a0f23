import Verif.Model.Basic

/-!
# Voxel iterators of `Field` and `WritableField`

`export/Field.h:490-608` (`Field::const_iterator`, `cbegin`, `cend`) and
`export/Field.h:702-816` (`WritableField::iterator`, `begin`, `end`) are textually the same state
machine over `(x, y, z)`; one model serves both.
-/

namespace F3D

/-- A C++ loop `for (s = start; !isEnd(s); s = next(s)) body(s)`: `Visits next isEnd s l` says that
the loop started in `s` terminates and that its body is entered exactly with the states `l`, in
order. -/
inductive Visits {σ : Type} (next : σ → σ) (isEnd : σ → Bool) : σ → List σ → Prop
  | done (s : σ) : isEnd s = true → Visits next isEnd s []
  | step (s : σ) (l : List σ) : isEnd s = false → Visits next isEnd (next s) l →
      Visits next isEnd s (s :: l)

/-- The same loop with its final state: `Loop next isEnd s l t` says that the loop started in `s`
enters its body with the states `l`, in order, and stops in `t`. (Where the body changes the state,
`next` is body followed by increment.) -/
inductive Loop {σ : Type} (next : σ → σ) (isEnd : σ → Bool) : σ → List σ → σ → Prop
  | done (s : σ) : isEnd s = true → Loop next isEnd s [] s
  | step (s : σ) (l : List σ) (t : σ) : isEnd s = false → Loop next isEnd (next s) l t →
      Loop next isEnd s (s :: l) t

/-- `const_iterator::operator++`, export/Field.h:519-534 (and 725-740 for the writable one). -/
def iterNext (w : Box3i) (p : V3i) : V3i :=
  if p.x = w.max.x then
    if p.y = w.max.y then
      ⟨w.min.x, w.min.y, p.z + 1⟩
    else
      ⟨w.min.x, p.y + 1, p.z⟩
  else
    ⟨p.x + 1, p.y, p.z⟩

/-- `cend()` / `cend(subset)`, export/Field.h:589-608 (and 800-816). -/
def iterEnd (w : Box3i) : V3i := ⟨w.min.x, w.min.y, w.max.z + 1⟩

/-- `cbegin(subset)`, export/Field.h:578-585 (and 789-796). -/
def iterBeginSubset (w : Box3i) : V3i := if w.isEmpty then iterEnd w else w.min

/-- `cbegin()`, export/Field.h:567-574 (and 777-785): only a resolution that is zero along all
three axes counts as empty. -/
def iterBegin (w : Box3i) : V3i := if w.res = V3i.all 0 then iterEnd w else w.min

/-- `operator==` with the end iterator, export/Field.h:535-539. -/
def iterAtEnd (w : Box3i) (p : V3i) : Bool :=
  decide (p.x = (iterEnd w).x) && decide (p.y = (iterEnd w).y) && decide (p.z = (iterEnd w).z)

end F3D
