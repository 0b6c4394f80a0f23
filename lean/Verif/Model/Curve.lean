/-!
# Animation curves

Models export/Curve.h. Times and interpolation factors (`float`) are exact rationals. Sample values are of any type
with the operation `lerp`.
-/

namespace F3D

/-- `Curve<T>::SampleVec`, export/Curve.h:87-88. -/
abbrev Curve (T : Type) := List (Rat × T)

namespace Curve
variable {T : Type}

/-- `find_if(CheckTEqual(t))` and `i->second = value`, export/Curve.h:185-191: the first sample at `t` is replaced;
`none` if there is none. -/
def replace (t : Rat) (v : T) : Curve T → Option (Curve T)
  | [] => none
  | s :: l => if s.1 = t then some ((s.1, v) :: l) else (replace t v l).map (s :: ·)

/-- `find_if(CheckTGreaterThan(t))` and `insert` or `push_back`, export/Curve.h:194-203. -/
def insert (t : Rat) (v : T) : Curve T → Curve T
  | [] => [(t, v)]
  | s :: l => if s.1 > t then (t, v) :: s :: l else s :: insert t v l

/-- `addSample`, export/Curve.h:179-204. -/
def addSample (c : Curve T) (t : Rat) (v : T) : Curve T :=
  match replace t v c with
  | some c' => c'
  | none => insert t v c

/-- `Imath::lerpfactor(m, a, b)`, in exact arithmetic. -/
def lerpfactor (m a b : Rat) : Rat := if b - a = 0 then 0 else (m - a) / (b - a)

/-- `Imath::lerp` of numbers. -/
def lerpQ (a b : Rat) (t : Rat) : Rat := a * (1 - t) + b * t

/-- The search of `linear`, export/Curve.h:217-234, with `lower` the sample before the rest: the first sample later
than `t` is interpolated with the one before it; without one the last value is returned. -/
def linearFrom (lerp : T → T → Rat → T) (t : Rat) (lower : Rat × T) : Curve T → T
  | [] => lower.2
  | s :: l => if s.1 > t then lerp lower.2 s.2 (lerpfactor t lower.1 s.1) else linearFrom lerp t s l

/-- `linear`, export/Curve.h:208-235; `dflt` is `defaultReturnValue()`. -/
def linear (lerp : T → T → Rat → T) (dflt : T) (c : Curve T) (t : Rat) : T :=
  match c with
  | [] => dflt
  | s :: l => if s.1 > t then s.2 else linearFrom lerp t s l

end Curve
end F3D
