import Verif.Model.Plugins

/-!
# Which plugins there are
-/

namespace F3D
namespace Plugins
open Factory (Str Class Creator)
open PatternMatch (splitAt)

/-- The names of plugins: `so`, or anything that ends in `.so`; dots at the end do not count. -/
def Shared (n : Str) : Prop :=
  ∃ a k, n = a ++ ['s', 'o'] ++ List.replicate k '.' ∧ (a = [] ∨ ∃ b, a = b ++ ['.'])

/-- The directories of the search path. -/
def dirs (W : World) : List Str :=
  match W.path with
  | none => []
  | some p => splitAt [':'] p

/-- The files in a directory that have names of plugins. -/
def filesIn (W : World) (d : Str) : List (Str × Str) :=
  match W.dir d with
  | none => []
  | some names => (names.filter isShared).map fun n => (d, n)

/-- The files with names of plugins, each with its directory, in the order of the search path. -/
def files (W : World) : List (Str × Str) := (dirs W).flatMap (filesIn W)

def pathOf (f : Str × Str) : Str := f.1 ++ ['/'] ++ f.2

/-- The part of a path after the last slash. -/
def baseName (p : Str) : Str := (p.reverse.takeWhile (fun c => c ≠ '/')).reverse

/-- The files whose name is not among those seen, and is not that of a file before it. -/
def firsts (seen : List Str) : List (Str × Str) → List (Str × Str)
  | [] => []
  | f :: fs => if f.2 ∈ seen then firsts seen fs else f :: firsts (seen ++ [f.2]) fs

/-- The plugin in a file, if it can be opened and has the registration function. -/
def pluginAt (W : World) (f : Str × Str) : Option Plugin :=
  match W.dl (pathOf f) with
  | some (some p) => some p
  | _ => none

/-- The files among these that are plugins. -/
def plugins (W : World) (fs : List (Str × Str)) : List (Str × Plugin) :=
  fs.filterMap fun f => (pluginAt W f).map fun p => (pathOf f, p)

/-- The plugins that come first under a name that was not loaded yet. -/
def unloaded (W : World) (s : St) : List (Str × Plugin) := plugins W (firsts s.loaded (files W))

/-- The classes registered by these plugins, in order. -/
def classes (ps : List (Str × Plugin)) : List (Class × Creator) := ps.flatMap fun p => p.2.registers

/-- Names of files in directories have no slash. -/
def Usual (W : World) : Prop := ∀ d names, W.dir d = some names → ∀ n ∈ names, '/' ∉ n

end Plugins
end F3D
