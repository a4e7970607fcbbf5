import Verif.Model.ByName
import Verif.Model.Crates
import Verif.Model.Export
import Verif.Model.Stl
import Verif.Model.Util
import Verif.Model.Vesper

/-!
# The programs

`src/bin`: the programs which write the libraries `Std` and `StrictTypes` and the layout of `TypeLib`. Files are
external, as in `Export`.
-/

namespace Verif

/-- `Result::unwrap`, `Result::expect`: an error is a panic. -/
def Out.unwrap {ε α : Type} : Out ε α → Out Unit α
  | .ok a => .ok a
  | .err _ => .panic
  | .panic => .panic
  | .diverge => .diverge

/-- Import the libraries one after another and finalise (`src/bin/strict-vesper.rs:36-42`). -/
def assembleSys (H : Hash) (debug : Bool) (ls : List TypeLib) : Out (List SysError) SymbolicSys := do
  let b ← (SystemBuilder.importAll H ls .new).mapErr fun e => [e]
  b.finalize debug

/-- `src/stl.rs:85`: `std_stl`. -/
def stdStl (H : Hash) (debug : Bool) (fuel : Nat) : Out Unit TypeLib := (Stl.stdCrate.build H debug fuel []).unwrap

/-- `src/stl.rs:87-110`: `strict_types_stl`. -/
def strictTypesStl (H : Hash) (debug : Bool) (fuel : Nat) : Out Unit TypeLib := do
  let std ← stdStl H debug fuel
  (Stl.strictTypesCrate.build H debug fuel [std]).unwrap

/-- `src/bin/std-stl.rs:34-38`. -/
def STD_HEADER : Bytes := b!"\n  Description: Strict types standard library\n  Author: Dr Maxim Orlovsky <orlovsky@ubideco.org>\n  Copyright (C) 2023-2024 UBIDECO Institute. All rights reserved.\n  License: Apache-2.0"

/-- `src/bin/strict-stl.rs:34-38`. -/
def STRICT_HEADER : Bytes := b!"\n  Description: Confined generalized algebraic data types (GADT)\n  Author: Dr Maxim Orlovsky <orlovsky@ubideco.org>\n  Copyright (C) 2023-2024 UBIDECO Institute. All rights reserved.\n  License: Apache-2.0"

/-- `src/bin/std-stl.rs:26-42`: the program `std-stl` with the given arguments. -/
def stdProgram (G : Glyphs) (H : Hash) (armored : TypeLib → Bytes) (armor debug : Bool) (fuel : Nat) (args : List Bytes) :
    Out Unit Exported := do
  let (format, dir) ← parseArgs armor args
  let l ← stdStl H debug fuel
  (l.export G H armored format dir b!"0.1.0" (some STD_HEADER)).unwrap

/-- `src/bin/strict-stl.rs:26-42`: the program `strict-stl` with the given arguments. -/
def strictProgram (G : Glyphs) (H : Hash) (armored : TypeLib → Bytes) (armor debug : Bool) (fuel : Nat)
    (args : List Bytes) : Out Unit Exported := do
  let (format, dir) ← parseArgs armor args
  let l ← strictTypesStl H debug fuel
  (l.export G H armored format dir b!"0.1.0" (some STRICT_HEADER)).unwrap

/-- `src/bin/strict-vesper.rs:47-60`: what is written before the layout. -/
def VESPER_HEADER : Bytes := b!"{-\n  Description: Data type layout in Vesper language\n  Author: Dr Maxim Orlovsky <orlovsky@ubideco.org>\n  Copyright (C) 2024 UBIDECO Institute. All rights reserved.\n  License: Apache-2.0\n-}\n\nStrictTypes vesper lexicon=types\n\n"

/-- `src/bin/strict-vesper.rs:33-34`: the library with `TypeLib` and what it is made of. -/
def Stl.typeLibCrate : Crate := ⟨Stl.lib, [Stl.typeLib]⟩

/-- `src/bin/strict-vesper.rs:31-62`: the program `strict-vesper`. -/
def vesperProgram (G : Glyphs) (H : Hash) (debug : Bool) (maxAttrs maxContent fuel layoutFuel : Nat) :
    Out Unit Exported := do
  let std ← stdStl H debug fuel
  let l ← (Stl.typeLibCrate.build H debug fuel [std]).unwrap
  let sys ← (assembleSys H debug [l, std]).unwrap
  let spec ← TypeSpec.ofText b!"StrictTypes.TypeLib"
  let root ← Out.expect (sys.typeTree spec)
  let items ← layout H debug layoutFuel sys root
  let e ← toVesper H debug maxAttrs maxContent items
  pure ⟨some b!"stl/TypeLib.vesper", VESPER_HEADER ++ e.text G 0⟩

end Verif
