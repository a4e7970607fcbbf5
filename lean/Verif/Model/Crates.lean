import Verif.Model.Transpile

/-!
# Building libraries of crates which depend on each other
-/

namespace Verif

/-- A crate: the name of its library and the Rust types it is built from. -/
structure Crate where
  name : Name
  types : List RTy

/-- Building one library, the way `src/stl.rs:44-99` and `src/value/mod.rs:85-95` do it:
`LibBuilder::with`, `transpile` for every type, `compile`; the libraries built before are given with
`to_dependency_types`. Transpiling never returns an error, it panics. -/
def Crate.build (H : Hash) (debug : Bool) (fuel : Nat) (c : Crate) (libs : List TypeLib) :
    Out CompileError TypeLib := do
  let known := libs.map fun l => ((l.toDependencyTypes H).1, some (l.toDependencyTypes H).2)
  let b ← (Transpiler.transpile H debug c.types (.new c.name known)).mapErr fun _ => .continue
  b.compile H debug fuel

/-- Building the libraries of several crates one after another. -/
def buildAll (H : Hash) (debug : Bool) (fuel : Nat) : List Crate → List TypeLib →
    Out CompileError (List TypeLib)
  | [], libs => .ok libs
  | c :: cs, libs => do
    let l ← c.build H debug fuel libs
    buildAll H debug fuel cs (libs ++ [l])

end Verif
