import Lean.Util.CollectAxioms
import Lean.Elab.Command
import Verif.Props.Access
import Verif.Props.Agree
import Verif.Props.Apart
import Verif.Props.Ast
import Verif.Props.Attained
import Verif.Props.Binary
import Verif.Props.Builders
import Verif.Props.Builds
import Verif.Props.BuildsBuilders
import Verif.Props.ByName
import Verif.Props.Chars
import Verif.Props.Checking
import Verif.Props.Codec
import Verif.Props.CompText
import Verif.Props.Compile
import Verif.Props.Confined
import Verif.Props.ConfinedRust
import Verif.Props.Convert
import Verif.Props.Cut
import Verif.Props.Draw
import Verif.Props.Equal
import Verif.Props.Errors
import Verif.Props.Export
import Verif.Props.Extract
import Verif.Props.Growth
import Verif.Props.Ids
import Verif.Props.Layout
import Verif.Props.LayoutFile
import Verif.Props.Library
import Verif.Props.Limit
import Verif.Props.Merge
import Verif.Props.Moved
import Verif.Props.Names
import Verif.Props.Notation
import Verif.Props.PathFile
import Verif.Props.PathText
import Verif.Props.Place
import Verif.Props.Programs
import Verif.Props.Reflect
import Verif.Props.Reorder
import Verif.Props.RustEnds
import Verif.Props.RustValues
import Verif.Props.Serde
import Verif.Props.Shape
import Verif.Props.Shown
import Verif.Props.Space
import Verif.Props.Stl
import Verif.Props.Ston
import Verif.Props.Strings
import Verif.Props.SysText
import Verif.Props.System
import Verif.Props.Text
import Verif.Props.Transpile
import Verif.Props.TypedText
import Verif.Props.Typify
import Verif.Props.Util
import Verif.Props.Value
import Verif.Props.Vesper
import Verif.Props.Whole
import Verif.Props.Wire
import Verif.Props.Witness
import Verif.Props.World

/-!
# Axiom audit

Fails the build if a property theorem (a theorem named `Verif.C<digits>_...`) depends on an axiom
other than the three standard ones.
-/

open Lean Elab Command in
run_cmd do
  let env ← getEnv
  let mut count : Nat := 0
  for (name, info) in env.constants.map₁.toList do
    let s := name.toString
    if !name.isInternalDetail && s.startsWith "Verif.C" && (s.drop 7).toString.front.isDigit then
      if let .thmInfo _ := info then
        let axs ← liftCoreM (collectAxioms name)
        for a in axs do
          unless a == ``propext || a == ``Classical.choice || a == ``Quot.sound do
            throwError "{name} depends on {a}"
        count := count + 1
  logInfo m!"{count} property theorems depend on the standard axioms only"
