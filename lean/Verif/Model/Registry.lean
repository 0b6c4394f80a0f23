/-!
# The class factory, reference counts and the field cache

Models src/ClassFactory.cpp, the reference counting of export/RefCount.h and export/FieldCache.h.
-/

namespace F3D

/-! ## Class factory -/

namespace Factory

abbrev Str := List Char

/-- The four kinds of classes. -/
inductive Class where
  | field | fieldIO | mapping | mappingIO
deriving DecidableEq, Repr

/-- What a creation function returns: null, or an object with a class name and (fields only) a data type name.
Creation functions are assumed to return the same class each time. -/
structure Creator where
  id : Nat
  makes : Option (Str × Str)
deriving DecidableEq, Repr

/-- The singleton: a map from class names to creation functions for each kind, and the lists of names.
`m_fieldMappingNames` is shared by mappings and mapping IO classes. -/
structure State where
  creators : Class → List (Str × Creator)
  names : Class → List Str

def init : State := ⟨fun _ => [], fun _ => []⟩

/-- The name registered: `simpleClassName<dataTypeName>` for fields, src/ClassFactory.cpp:86-88, `className`
otherwise, 142, 194, 245. -/
def key (k : Class) (i : Str × Str) : Str :=
  match k with
  | .field => i.1 ++ ['<'] ++ i.2 ++ ['>']
  | _ => i.1

/-- The name list of a kind: `registerFieldMappingIO` uses `m_fieldMappingNames`, src/ClassFactory.cpp:255-258. -/
def nameList : Class → Class
  | .mappingIO => .mapping
  | k => k

/-- `std::map::find`. -/
def lookup (m : List (Str × Creator)) (n : Str) : Option Creator := (m.find? (fun e => e.1 = n)).map (·.2)

/-- `registerField`, `registerFieldIO`, `registerFieldMapping`, `registerFieldMappingIO`,
src/ClassFactory.cpp:71-108, 124-161, 178-213, 229-264. -/
def register (k : Class) (c : Creator) (s : State) : State :=
  match c.makes with
  | none => s
  | some i =>
    let n := key k i
    match lookup (s.creators k) n with
    | some _ => s
    | none =>
      { creators := fun k' => if k' = k then (n, c) :: s.creators k' else s.creators k'
        names := fun k' =>
          if k' = nameList k then (if n ∈ s.names k' then s.names k' else s.names k' ++ [n]) else s.names k' }

/-- `createField` and the others, src/ClassFactory.cpp:112-120, 165-174, 217-225, 268-276: the creation function
that is called; `none` is a null pointer. -/
def create (k : Class) (n : Str) (s : State) : Option Creator := lookup (s.creators k) n

def run (calls : List (Class × Creator)) (s : State) : State := calls.foldl (fun s c => register c.1 c.2 s) s

end Factory

/-! ## Reference counts -/

namespace Refs

/-- The object of one intrusive pointer: its counter, how often `delete` was called on it, and whether it was
used after that. -/
structure Obj where
  count : Int
  deletes : Nat
  usedAfter : Bool
deriving DecidableEq, Repr

/-- A fresh object, export/RefCount.h:109-112. -/
def fresh : Obj := ⟨0, 0, false⟩

def touch (o : Obj) : Obj := { o with usedAfter := o.usedAfter || decide (0 < o.deletes) }

/-- `ref`, export/RefCount.h:139-145, under the mutex or atomic. -/
def ref (o : Obj) : Obj := { touch o with count := o.count + 1 }

/-- `unref`, export/RefCount.h:148-156. -/
def unref (o : Obj) : Obj := { touch o with count := o.count - 1 }

/-- `if (r->refcnt() == 0) delete r`, export/RefCount.h:243-244. -/
def checkDelete (o : Obj) : Obj :=
  let o := touch o
  if o.count = 0 then { o with deletes := o.deletes + 1 } else o

/-- One thread: an add, or `intrusive_ptr_release`, export/RefCount.h:239-245, without interruption. -/
inductive Op where
  | add | release
deriving DecidableEq, Repr

def apply (o : Obj) : Op → Obj
  | .add => ref o
  | .release => checkDelete (unref o)

def runOps (o : Obj) (ops : List Op) : Obj := ops.foldl apply o

/-- A thread in `intrusive_ptr_release`: before `unref`, between `unref` and the test, after. -/
inductive Pc where
  | start | dropped | done
deriving DecidableEq, Repr

structure Race where
  obj : Obj
  pcs : List Pc
deriving DecidableEq, Repr

/-- One step of thread `t`. The mutex makes each step atomic, but is released between the two. -/
def step (s : Race) (t : Nat) : Race :=
  match s.pcs[t]? with
  | some .start => ⟨unref s.obj, s.pcs.set t .dropped⟩
  | some .dropped => ⟨checkDelete s.obj, s.pcs.set t .done⟩
  | _ => s

def runRace (s : Race) (sched : List Nat) : Race := sched.foldl step s

/-- `n` threads that each hold one of the `n` references, and release it. -/
def raceStart (n : Nat) : Race := ⟨⟨n, 0, false⟩, List.replicate n .start⟩

/-- For comparison, not in the code: decrement and test in one step. -/
def stepAtomic (s : Race) (t : Nat) : Race :=
  match s.pcs[t]? with
  | some .start => ⟨checkDelete (unref s.obj), s.pcs.set t .done⟩
  | _ => s

def runAtomic (s : Race) (sched : List Nat) : Race := sched.foldl stepAtomic s

end Refs

/-! ## The field cache -/

namespace FieldCache

abbrev Str := List Char

/-- The caches of all element types `τ`: for each, a map from keys to objects. `dead` are the objects whose shared
pointer has expired. -/
structure State (τ : Type) where
  cache : τ → List (Str × Nat)
  dead : List Nat

/-- `key`, export/FieldCache.h:202-206. -/
def key (file path : Str) : Str := file ++ ['/'] ++ path

/-- What happens: a field of a type is cached, or an object dies. -/
inductive Op (τ : Type) where
  | cacheField (t : τ) (obj : Nat) (file path : Str)
  | die (obj : Nat)

/-- `cacheField`, export/FieldCache.h:168-175, and the expiry of an object. -/
def apply {τ : Type} [DecidableEq τ] (s : State τ) : Op τ → State τ
  | .cacheField t o f p =>
    { s with cache := fun t' =>
        if t' = t then (key f p, o) :: (s.cache t').filter (fun e => !(decide (e.1 = key f p))) else s.cache t' }
  | .die o => { s with dead := o :: s.dead }

def init {τ : Type} : State τ := ⟨fun _ => [], []⟩

def run {τ : Type} [DecidableEq τ] (ops : List (Op τ)) : State τ := ops.foldl apply init

/-- `getCachedField`, export/FieldCache.h:146-164. -/
def get {τ : Type} (s : State τ) (t : τ) (file path : Str) : Option Nat :=
  match (s.cache t).find? (fun e => e.1 = key file path) with
  | none => none
  | some e => if e.2 ∈ s.dead then none else some e.2

/-- The layer path, src/Field3DFile.cpp:1549. -/
def layerPath (partition layer : Str) : Str := partition ++ ['/'] ++ layer

/-- The last reference of an object being released while another thread looks it up: the counter, whether the
releasing thread has started and finished, and whether the weak pointer has expired. The shared pointer is a
member of the base class, so it expires only after the derived destructors, export/RefCount.h:201-203. -/
structure Resurrect where
  count : Nat
  destroying : Bool
  expired : Bool
  got : Option Bool
deriving DecidableEq, Repr

/-- Steps of the releasing thread (`unref`; test and start of the destructor; end of the destructor) and of the
reading thread (`getCachedField`, atomic under the mutex of the cache). `got = some b`: a pointer was returned, `b`
says that the object was already being destroyed or its count had been zero. -/
inductive RStep where
  | unref | destroy | expire | get
deriving DecidableEq, Repr

def rstep (s : Resurrect) : RStep → Resurrect
  | .unref => { s with count := s.count - 1 }
  | .destroy => if s.count = 0 then { s with destroying := true } else s
  | .expire => if s.destroying then { s with expired := true } else s
  | .get => if s.expired then s else { s with count := s.count + 1, got := some (s.destroying || decide (s.count = 0)) }

def rrun (s : Resurrect) (l : List RStep) : Resurrect := l.foldl rstep s

end FieldCache
end F3D
