import Verif.Model.Text
import Verif.Model.TyCodec
import Verif.Model.Compile

/-!
# Exporting libraries

`TypeLib::serialize` and `SymbolicLib::serialize`: where the library goes and what is written. Files are external: they
can be created, and writing to them does not fail.
-/

namespace Verif

/-- The error returned: more bytes than the writer admits. -/
inductive ExportErr where
  | limit
deriving DecidableEq, Repr

/-- What has been written: the path of the file (`none` for the standard output) and the contents. -/
structure Exported where
  path : Option Bytes
  content : Bytes
deriving DecidableEq, Repr

/-- `PathBuf::push` of a relative path (external, on Unix). -/
def pushPath (dir file : Bytes) : Bytes :=
  match dir.getLast? with
  | none => file
  | some c => if c = 47 then dir ++ file else dir ++ b!"/" ++ file

/-- `src/typelib/serialize.rs:54,98`: the name of the file. -/
def fileName (name : Name) (ver ext : Bytes) : Bytes := name.bytes ++ b!"@" ++ ver ++ b!"." ++ ext

/-- `src/typelib/serialize.rs:49-57,94-101`: the path of the file, if a directory is given. -/
def exportPath (dir : Option Bytes) (name : Name) (ver ext : Bytes) : Option Bytes :=
  dir.map fun d => pushPath d (fileName name ver ext)

/-- `U24MAX`, the limit of the writer for the binary form (`src/typelib/serialize.rs:61`). -/
def EXPORT_LIMIT : Nat := 2 ^ 24 - 1

/-- `src/typelib/serialize.rs:38-80`: `TypeLib::serialize`. The armored form of a library is external (`armored`). The
absent `header` is the empty one. Simplification: what a failing call leaves in the file is not modelled. -/
def TypeLib.export (G : Glyphs) (H : Hash) (armored : TypeLib → Bytes) (l : TypeLib) (format : StlFormat)
    (dir : Option Bytes) (ver : Bytes) (header : Option Bytes) : Out ExportErr Exported :=
  let path := exportPath dir l.name ver format.display
  match format with
  | .binary => if l.encode.length ≤ EXPORT_LIMIT then .ok ⟨path, l.encode⟩ else .err .limit
  | .armored => .ok ⟨path, armored l ++ [10]⟩
  | .source =>
    match l.toSymbolic H with
    | .ok s => .ok ⟨path, l.source G H s ver (header.getD [])⟩
    | _ => .panic

/-- `src/typelib/serialize.rs:86-114`: `SymbolicLib::serialize`. -/
def SymbolicLib.export (G : Glyphs) (H : Hash) (s : SymbolicLib) (dir : Option Bytes) (ver : Bytes)
    (header : Option Bytes) : Exported :=
  ⟨exportPath dir s.name ver b!"sty",
    b!"{-" ++ [10] ++ b!"  Name: " ++ s.name.bytes ++ [10] ++ b!"  Version: " ++ ver ++ header.getD [] ++ [10] ++
      b!"-}" ++ [10, 10] ++ s.text G H ++ [10]⟩

end Verif
