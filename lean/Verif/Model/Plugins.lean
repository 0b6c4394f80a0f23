import Verif.Model.PatternMatch
import Verif.Model.Registry

/-!
# Plugins and the class factory

Models src/PluginLoader.cpp (not its Windows parts), `ClassFactory::singleton` and the constructor of the factory, src/ClassFactory.cpp,
and `initIO`, src/InitIO.cpp. Simplified: directories and files do not change while one call is running; a registration
function does nothing but register classes with the factory that it is given; one thread.
-/

namespace F3D
namespace Plugins
open Factory (Str Class Creator)
open PatternMatch (splitAt)

/-- A plugin: the classes that `registerField3DPlugin` registers. Its result decides only about a message. -/
structure Plugin where
  registers : List (Class × Creator)
deriving DecidableEq, Repr

/-- What the process sees: the environment variable `FIELD3D_DSO_PATH`; the names in a directory, in the order of `readdir`,
if it can be opened; what `dlopen` and `dlsym` make of a file: `none` if it cannot be opened, `some none` if the symbol is missing. -/
structure World where
  path : Option Str
  dir : Str → Option (List Str)
  dl : Str → Option (Option Plugin)

/-- The static members: `ms_pluginsLoaded` and `ms_instance`; the factories made so far (numbered in the order in which their
constructors started), those deleted, and the calls of registration functions, with the file and the factory. -/
structure St where
  loaded : List Str
  inst : Option Nat
  made : List Factory.State
  gone : List Nat
  called : List (Str × Nat)

/-- The start of the process. -/
def new : St := ⟨[], none, [], [], []⟩

/-- `filter(name, "so")`, src/PluginLoader.cpp:104-120. -/
def isShared (name : Str) : Bool :=
  match (splitAt ['.'] name).getLast? with
  | none => false
  | some t => decide (t = ['s', 'o'])

/-- `getDirSos`, src/PluginLoader.cpp:124-177. -/
def dirSos (W : World) (dir : Str) : Option (List Str) :=
  (W.dir dir).map fun names => (names.filter isShared).map fun n => dir ++ ['/'] ++ n

/-- The files that the two loops of `loadPlugins` visit, src/PluginLoader.cpp:252-281. -/
def sos (W : World) : List Str :=
  match W.path with
  | none => []
  | some p => (splitAt [':'] p).flatMap fun d => (dirSos W d).getD []

/-- `findRegistrationFunc`, src/PluginLoader.cpp:179-229. -/
def registration (W : World) (so : Str) : Option Plugin :=
  match W.dl so with
  | none => none
  | some f => f

/-- `new ClassFactory` before the body of its constructor, src/ClassFactory.cpp:65, 281. -/
def alloc (s : St) : Nat × St := (s.made.length, { s with made := s.made ++ [Factory.init] })

/-- `ms_instance.reset`, src/ClassFactory.cpp:281: the factory before is deleted. -/
def reset (i : Nat) (s : St) : St :=
  { s with inst := some i, gone := s.gone ++ s.inst.toList }

/-- `ClassFactory::singleton`, src/ClassFactory.cpp:277-284; the constructor of the factory, src/ClassFactory.cpp:65-68, calls
`load`, and only then `ms_instance` is set. `none` if `load` does not end. -/
def singletonWith (load : St → Option St) (s : St) : Option (Nat × St) :=
  match s.inst with
  | some i => some (i, s)
  | none =>
    let a := alloc s
    (load a.2).map fun s => (a.1, reset a.1 s)

/-- The call of a registration function with a factory, src/PluginLoader.cpp:312. -/
def call (so : Str) (p : Plugin) (i : Nat) (s : St) : St :=
  { s with
    made := s.made.modify i (Factory.run p.registers)
    called := s.called ++ [(so, i)] }

/-- The body of the loop over the files, src/PluginLoader.cpp:284-322, for all of them. The name is that after the last slash;
it is noted before the file is opened. -/
def visit (W : World) (load : St → Option St) : List Str → St → Option St
  | [], s => some s
  | so :: rest, s =>
    match (splitAt ['/'] so).getLast? with
    | none =>
      match registration W so with
      | none => visit W load rest s
      | some p => (singletonWith load s).bind fun r => visit W load rest (call so p r.1 r.2)
    | some name =>
      if name ∈ s.loaded then visit W load rest s
      else
        let s := { s with loaded := s.loaded ++ [name] }
        match registration W so with
        | none => visit W load rest s
        | some p => (singletonWith load s).bind fun r => visit W load rest (call so p r.1 r.2)

/-- `PluginLoader::loadPlugins`, src/PluginLoader.cpp:252-325, with at most `n` calls of it inside one another; `none` if there are more. -/
def loadN (W : World) : Nat → St → Option St
  | 0, _ => none
  | n + 1, s => visit W (loadN W n) (sos W) s

/-- `PluginLoader::loadPlugins`. -/
def loadPlugins (W : World) (s : St) : Option St := loadN W ((sos W).length + 1) s

/-- `ClassFactory::singleton`. -/
def singleton (W : World) (s : St) : Option (Nat × St) := singletonWith (loadPlugins W) s

/-- The classes registered by `initIO`, src/InitIO.cpp:73-80, with the names of include/DenseFieldIO.h:140, SparseFieldIO.h:141, MACFieldIO.h:137,
MIPFieldIO.h:151 and src/FieldMappingIO.cpp:138, 334, 605. -/
def library : List (Class × Creator) :=
  [(.fieldIO, ⟨0, some ("DenseField".toList, [])⟩), (.fieldIO, ⟨1, some ("SparseField".toList, [])⟩),
   (.fieldIO, ⟨2, some ("MACField".toList, [])⟩), (.fieldIO, ⟨3, some ("MIPField".toList, [])⟩),
   (.mappingIO, ⟨4, some ("NullFieldMapping".toList, [])⟩), (.mappingIO, ⟨5, some ("MatrixFieldMapping".toList, [])⟩),
   (.mappingIO, ⟨6, some ("FrustumFieldMapping".toList, [])⟩)]

/-- `initIO`, src/InitIO.cpp:66-81. -/
def initIO (W : World) (s : St) : Option St :=
  (singleton W s).map fun r => { r.2 with made := r.2.made.modify r.1 (Factory.run library) }

/-- `ClassFactory::singleton().createField(name)` and the others: the creation function used, if any. -/
def create (W : World) (k : Class) (n : Str) (s : St) : Option (Option Creator × St) :=
  (singleton W s).map fun r => ((r.2.made[r.1]?).bind (Factory.create k n), r.2)

/-- What a program does. -/
inductive Step where
  | singleton | loadPlugins | initIO
deriving DecidableEq, Repr

def step (W : World) (s : St) : Step → Option St
  | .singleton => (singleton W s).map (·.2)
  | .loadPlugins => loadPlugins W s
  | .initIO => initIO W s

/-- Steps of a program; directories, files and environment may be others at each step. -/
def run (s : St) : List (World × Step) → Option St
  | [] => some s
  | c :: cs => (step c.1 s c.2).bind fun s => run s cs

end Plugins
end F3D
