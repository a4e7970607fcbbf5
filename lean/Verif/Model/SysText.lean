import Verif.Model.Text

/-!
# Text of type systems and symbols

The `Display` implementations of `TypeSystem`, `SymbolicSys` and `Symbols`. Ids are shown with different
options of the formatter; their texts are parameters.
-/

namespace Verif

/-- Further texts of ids (`baid64`): `{:-}` of semantic ids, `{}` and `{:+}` of ids of systems. -/
structure IdGlyphs where
  short : Id32 → Bytes
  sys : Id32 → Bytes
  sysLong : Id32 → Bytes

/-- `src/ast/ty.rs:250-290`: `{:-}` of a type whose references are not compound (`Display for Ty`). Options of
the formatter are handed on to the references, but not to keys of maps (`ty.rs:281`): the text of those is
given by `key`, the one of other references by `f`. -/
def Ty.textShort {Ref : Type} (G : Glyphs) (key f : Ref → Bytes) (t : Ty Ref) : Bytes :=
  match t with
  | .map k r sz => b!"{" ++ key k ++ b!" ->" ++ G.sizing sz ++ b!" " ++ f r ++ b!"}"
  | t => t.text G f fun _ => false

/-- `src/typesys/type_sys.rs:195-204`: `Display for TypeSystem`. -/
def TypeSystem.text (G : Glyphs) (K : IdGlyphs) (H : Hash) (s : TypeSystem) : Bytes :=
  b!"typesys -- " ++ K.sys (s.id H) ++ [10, 10] ++
    s.flatMap fun e => b!"data " ++ K.short e.1 ++ b!": " ++ e.2.textShort G G.id K.short ++ [10]

/-- `src/typesys/translate.rs:65-72`: `Display for TypeSymbol`, given the text of ids. -/
def TypeSymbol.text (id : Id32 → Bytes) (s : TypeSymbol) : Bytes :=
  match s.fqn with
  | some fqn => fqn.text
  | none => id s.id

/-- `src/typesys/symbols.rs:175-184`: the lines of a type. The references are translated to symbols
(`Translate for Ty`, which keeps everything else), which never fails: here, the symbols are shown in place. -/
def SymbolicSys.dataText (G : Glyphs) (K : IdGlyphs) (s : SymbolicSys) (e : SemId × Ty SemId) : Bytes :=
  let text := e.2.textShort G (fun r => (s.toSymbol r).text G.id) fun r => (s.toSymbol r).text K.short
  match s.lookup e.1 with
  | some fqn => b!"-- " ++ K.short e.1 ++ [10] ++ b!"data " ++ fqn.text ++ b!": " ++ text ++ [10]
  | none => b!"data " ++ K.short e.1 ++ b!": " ++ text ++ [10]

/-- `src/typesys/symbols.rs:171-187`: `Display for SymbolicSys`. -/
def SymbolicSys.text (G : Glyphs) (K : IdGlyphs) (H : Hash) (s : SymbolicSys) : Bytes :=
  b!"typesys -- " ++ K.sysLong (s.types.id H) ++ [10, 10] ++ s.types.flatMap (s.dataText G K)

/-- `src/typesys/symbols.rs:97-99`: the line of a library. -/
def libLine (G : Glyphs) (d : Dependency) : Bytes := d.text G ++ b!" as " ++ d.name.bytes ++ [10]

/-- `src/typesys/symbols.rs:101-105`: the line of a symbol, if it has a name. -/
def symbolLine (G : Glyphs) (s : TypeSymbol) : Bytes :=
  match s.fqn with
  | some fqn => b!"  " ++ fqn.text ++ b!" => " ++ G.id s.id ++ [10]
  | none => []

/-- `src/typesys/symbols.rs:94-110`: `Display for Symbols`. -/
def Symbols.text (G : Glyphs) (s : Symbols) : Bytes :=
  [10] ++ s.libs.flatMap (libLine G) ++ (b!"{--" ++ [10]) ++ s.symbols.flatMap (symbolLine G) ++ (b!"--}" ++ [10])

end Verif
