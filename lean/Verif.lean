import Verif.Audit
import Verif.Golden
import Verif.Lemmas.Apart
import Verif.Lemmas.Ast
import Verif.Lemmas.Attained
import Verif.Lemmas.Basic
import Verif.Lemmas.Builder
import Verif.Lemmas.Builders
import Verif.Lemmas.Builds
import Verif.Lemmas.Canon
import Verif.Lemmas.Check
import Verif.Lemmas.Checking
import Verif.Lemmas.Codec
import Verif.Lemmas.Commit
import Verif.Lemmas.CompText
import Verif.Lemmas.Compile
import Verif.Lemmas.CompileLib
import Verif.Lemmas.CompileLoop
import Verif.Lemmas.Confined
import Verif.Lemmas.Convert
import Verif.Lemmas.CrateBuild
import Verif.Lemmas.CrateTypes
import Verif.Lemmas.Crates
import Verif.Lemmas.Cut
import Verif.Lemmas.DecodedKept
import Verif.Lemmas.Deps
import Verif.Lemmas.Draw
import Verif.Lemmas.Errors
import Verif.Lemmas.Extract
import Verif.Lemmas.Fresh
import Verif.Lemmas.Fuel
import Verif.Lemmas.Growth
import Verif.Lemmas.GrowthText
import Verif.Lemmas.Inj
import Verif.Lemmas.Layout
import Verif.Lemmas.LayoutCodec
import Verif.Lemmas.LayoutHeld
import Verif.Lemmas.Lengths
import Verif.Lemmas.Lex
import Verif.Lemmas.Moved
import Verif.Lemmas.Names
import Verif.Lemmas.Nodes
import Verif.Lemmas.Notation
import Verif.Lemmas.PathCodec
import Verif.Lemmas.PathText
import Verif.Lemmas.Place
import Verif.Lemmas.Read
import Verif.Lemmas.ReadFits
import Verif.Lemmas.Reading
import Verif.Lemmas.Reflect
import Verif.Lemmas.ReflectLayer
import Verif.Lemmas.ReflectTyped
import Verif.Lemmas.Refused
import Verif.Lemmas.Rel
import Verif.Lemmas.Reorder
import Verif.Lemmas.RoundTrip
import Verif.Lemmas.RoundTripExact
import Verif.Lemmas.Sane
import Verif.Lemmas.Serde
import Verif.Lemmas.SerdeTyped
import Verif.Lemmas.Space
import Verif.Lemmas.StlChecks
import Verif.Lemmas.StlNodes
import Verif.Lemmas.StlValues
import Verif.Lemmas.Ston
import Verif.Lemmas.StonTyped
import Verif.Lemmas.Swap
import Verif.Lemmas.SwapWrite
import Verif.Lemmas.Symbolic
import Verif.Lemmas.SysText
import Verif.Lemmas.System
import Verif.Lemmas.Text
import Verif.Lemmas.TextInj
import Verif.Lemmas.TextLib
import Verif.Lemmas.TextShown
import Verif.Lemmas.Total
import Verif.Lemmas.Translate
import Verif.Lemmas.Transpile
import Verif.Lemmas.TranspileClosed
import Verif.Lemmas.TranspileFrame
import Verif.Lemmas.Tree
import Verif.Lemmas.TyCodec
import Verif.Lemmas.TyCodecLib
import Verif.Lemmas.TyCodecRd
import Verif.Lemmas.TyCodecTy
import Verif.Lemmas.TyListed
import Verif.Lemmas.Typify
import Verif.Lemmas.TypifyErrors
import Verif.Lemmas.TypifyExact
import Verif.Lemmas.TypifyOut
import Verif.Lemmas.Utf8
import Verif.Lemmas.Util
import Verif.Lemmas.Vesper
import Verif.Lemmas.Wire
import Verif.Lemmas.WireApart
import Verif.Lemmas.World
import Verif.Model.Ast
import Verif.Model.Basic
import Verif.Model.Builders
import Verif.Model.ByName
import Verif.Model.Codec
import Verif.Model.Compile
import Verif.Model.Convert
import Verif.Model.Crates
import Verif.Model.Export
import Verif.Model.Extract
import Verif.Model.LayoutCodec
import Verif.Model.Limit
import Verif.Model.PathCodec
import Verif.Model.PathText
import Verif.Model.Programs
import Verif.Model.Refs
import Verif.Model.Serde
import Verif.Model.Shape
import Verif.Model.Stl
import Verif.Model.Ston
import Verif.Model.SysText
import Verif.Model.System
import Verif.Model.Text
import Verif.Model.Transpile
import Verif.Model.Tree
import Verif.Model.TyCodec
import Verif.Model.TypedText
import Verif.Model.Typify
import Verif.Model.Util
import Verif.Model.Val
import Verif.Model.Vesper
import Verif.Props.Access
import Verif.Props.Agree
import Verif.Props.Apart
import Verif.Props.Ast
import Verif.Props.Attained
import Verif.Props.Binary
import Verif.Props.Builders
import Verif.Props.Builds
import Verif.Props.BuildsBuilders
import Verif.Props.ByName
import Verif.Props.Chars
import Verif.Props.Checking
import Verif.Props.Codec
import Verif.Props.CompText
import Verif.Props.Compile
import Verif.Props.Confined
import Verif.Props.ConfinedRust
import Verif.Props.Convert
import Verif.Props.Cut
import Verif.Props.Draw
import Verif.Props.Equal
import Verif.Props.Errors
import Verif.Props.Export
import Verif.Props.Extract
import Verif.Props.Growth
import Verif.Props.Ids
import Verif.Props.Layout
import Verif.Props.LayoutFile
import Verif.Props.Library
import Verif.Props.Limit
import Verif.Props.Merge
import Verif.Props.Moved
import Verif.Props.Names
import Verif.Props.Notation
import Verif.Props.PathFile
import Verif.Props.PathText
import Verif.Props.Place
import Verif.Props.Programs
import Verif.Props.Reflect
import Verif.Props.Reorder
import Verif.Props.RustEnds
import Verif.Props.RustValues
import Verif.Props.Serde
import Verif.Props.Shape
import Verif.Props.Shown
import Verif.Props.Space
import Verif.Props.Stl
import Verif.Props.Ston
import Verif.Props.Strings
import Verif.Props.SysText
import Verif.Props.System
import Verif.Props.Text
import Verif.Props.Transpile
import Verif.Props.TypedText
import Verif.Props.Typify
import Verif.Props.Util
import Verif.Props.Value
import Verif.Props.Vesper
import Verif.Props.Whole
import Verif.Props.Wire
import Verif.Props.Witness
import Verif.Props.World
import Verif.Spec.Apart
import Verif.Spec.Ast
import Verif.Spec.Attained
import Verif.Spec.Builds
import Verif.Spec.ByName
import Verif.Spec.Chars
import Verif.Spec.Checking
import Verif.Spec.CompText
import Verif.Spec.Compile
import Verif.Spec.Confined
import Verif.Spec.Convert
import Verif.Spec.Draw
import Verif.Spec.Equal
import Verif.Spec.Errors
import Verif.Spec.Example
import Verif.Spec.Export
import Verif.Spec.Growth
import Verif.Spec.Hash
import Verif.Spec.LayoutCodec
import Verif.Spec.Moved
import Verif.Spec.Names
import Verif.Spec.Notation
import Verif.Spec.Part
import Verif.Spec.Path
import Verif.Spec.PathCodec
import Verif.Spec.Place
import Verif.Spec.Reach
import Verif.Spec.Reading
import Verif.Spec.Reflect
import Verif.Spec.Reorder
import Verif.Spec.Serde
import Verif.Spec.Shape
import Verif.Spec.Shown
import Verif.Spec.Space
import Verif.Spec.Stl
import Verif.Spec.Ston
import Verif.Spec.Swap
import Verif.Spec.SysText
import Verif.Spec.System
import Verif.Spec.Text
import Verif.Spec.Transpile
import Verif.Spec.Tree
import Verif.Spec.Ty
import Verif.Spec.TyCodec
import Verif.Spec.Utf8
import Verif.Spec.Util
import Verif.Spec.Value
import Verif.Spec.Vesper
import Verif.Spec.Wire
import Verif.Spec.World
