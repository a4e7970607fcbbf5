import Verif.Model.Convert

/-!
# Reading documents back off values
-/

namespace Verif

mutual
/-- No float occurs in the document. -/
def Json.floatFree : Json → Bool
  | .float => false
  | .arr l => Json.floatFreeAll l
  | .obj l => Json.floatFreeEntries l
  | _ => true
termination_by structural j => j
/-- No float occurs in the documents. -/
def Json.floatFreeAll : List Json → Bool
  | [] => true
  | j :: l => j.floatFree && Json.floatFreeAll l
termination_by structural j => j
/-- No float occurs in the entries. -/
def Json.floatFreeEntries : List (Bytes × Json) → Bool
  | [] => true
  | e :: l => Json.floatFreeEntry e && Json.floatFreeEntries l
termination_by structural j => j
/-- No float occurs in the entry. -/
def Json.floatFreeEntry : Bytes × Json → Bool
  | (_, j) => j.floatFree
termination_by structural j => j
end

mutual
/-- The document with the structure, strings and numbers of the value. -/
def jsonOf : Val → Option Json
  | .unit => some .null
  | .enum (.ord t) => if t = 0 then some (.bool false) else if t = 1 then some (.bool true) else none
  | .num (.uint n) => some (.uint n)
  | .num (.int n) => some (.negInt n)
  | .str s => some (.str s)
  | .list l => (jsonOfAll l).map .arr
  | .map l => (jsonOfEntries l).map .obj
  | _ => none
termination_by structural v => v
/-- The documents of a list of values. -/
def jsonOfAll : List Val → Option (List Json)
  | [] => some []
  | v :: l => do
    let j ← jsonOf v
    let l ← jsonOfAll l
    pure (j :: l)
termination_by structural v => v
/-- The entries of an object. -/
def jsonOfEntries : List (Val × Val) → Option (List (Bytes × Json))
  | [] => some []
  | e :: l => do
    let e ← jsonOfEntry e
    let l ← jsonOfEntries l
    pure (e :: l)
termination_by structural v => v
/-- One entry of an object; keys are strings. -/
def jsonOfEntry : Val × Val → Option (Bytes × Json)
  | (.str k, v) => (jsonOf v).map fun j => (k, j)
  | _ => none
termination_by structural v => v
end

mutual
/-- No float occurs in the document. -/
def Yaml.floatFree : Yaml → Bool
  | .float => false
  | .seq l => Yaml.floatFreeAll l
  | .mapping l => Yaml.floatFreeEntries l
  | .tagged _ y => y.floatFree
  | _ => true
termination_by structural j => j
/-- No float occurs in the documents. -/
def Yaml.floatFreeAll : List Yaml → Bool
  | [] => true
  | j :: l => j.floatFree && Yaml.floatFreeAll l
termination_by structural j => j
/-- No float occurs in the entries. -/
def Yaml.floatFreeEntries : List (Yaml × Yaml) → Bool
  | [] => true
  | e :: l => Yaml.floatFreeEntry e && Yaml.floatFreeEntries l
termination_by structural j => j
/-- No float occurs in the entry. -/
def Yaml.floatFreeEntry : Yaml × Yaml → Bool
  | (k, j) => k.floatFree && j.floatFree
termination_by structural j => j
end

mutual
/-- The document without tags. -/
def Yaml.untagged : Yaml → Yaml
  | .seq l => .seq (Yaml.untaggedAll l)
  | .mapping l => .mapping (Yaml.untaggedEntries l)
  | .tagged _ y => y.untagged
  | y => y
termination_by structural j => j
/-- The documents without tags. -/
def Yaml.untaggedAll : List Yaml → List Yaml
  | [] => []
  | j :: l => j.untagged :: Yaml.untaggedAll l
termination_by structural j => j
/-- The entries without tags. -/
def Yaml.untaggedEntries : List (Yaml × Yaml) → List (Yaml × Yaml)
  | [] => []
  | e :: l => Yaml.untaggedEntry e :: Yaml.untaggedEntries l
termination_by structural j => j
/-- The entry without tags. -/
def Yaml.untaggedEntry : Yaml × Yaml → Yaml × Yaml
  | (k, j) => (k.untagged, j.untagged)
termination_by structural j => j
end

mutual
/-- The document with the structure, strings and numbers of the value. -/
def yamlOf : Val → Option Yaml
  | .unit => some .null
  | .enum (.ord t) => if t = 0 then some (.bool false) else if t = 1 then some (.bool true) else none
  | .num (.uint n) => some (.uint n)
  | .num (.int n) => some (.negInt n)
  | .str s => some (.str s)
  | .list l => (yamlOfAll l).map .seq
  | .map l => (yamlOfEntries l).map .mapping
  | _ => none
termination_by structural v => v
/-- The documents of a list of values. -/
def yamlOfAll : List Val → Option (List Yaml)
  | [] => some []
  | v :: l => do
    let j ← yamlOf v
    let l ← yamlOfAll l
    pure (j :: l)
termination_by structural v => v
/-- The entries of a mapping. -/
def yamlOfEntries : List (Val × Val) → Option (List (Yaml × Yaml))
  | [] => some []
  | e :: l => do
    let e ← yamlOfEntry e
    let l ← yamlOfEntries l
    pure (e :: l)
termination_by structural v => v
/-- One entry of a mapping. -/
def yamlOfEntry : Val × Val → Option (Yaml × Yaml)
  | (k, v) => do
    let k ← yamlOf k
    let v ← yamlOf v
    pure (k, v)
termination_by structural v => v
end

mutual
/-- Neither floats nor dates occur in the document. -/
def Toml.plain : Toml → Bool
  | .float => false
  | .datetime => false
  | .arr l => Toml.plainAll l
  | .table l => Toml.plainEntries l
  | _ => true
termination_by structural j => j
/-- Neither floats nor dates occur in the documents. -/
def Toml.plainAll : List Toml → Bool
  | [] => true
  | j :: l => j.plain && Toml.plainAll l
termination_by structural j => j
/-- Neither floats nor dates occur in the entries. -/
def Toml.plainEntries : List (Bytes × Toml) → Bool
  | [] => true
  | e :: l => Toml.plainEntry e && Toml.plainEntries l
termination_by structural j => j
/-- Neither floats nor dates occur in the entry. -/
def Toml.plainEntry : Bytes × Toml → Bool
  | (_, j) => j.plain
termination_by structural j => j
end

mutual
/-- The document with the structure, strings and numbers of the value. -/
def tomlOf : Val → Option Toml
  | .enum (.ord t) => if t = 0 then some (.bool false) else if t = 1 then some (.bool true) else none
  | .num (.int n) => some (.int n)
  | .str s => some (.str s)
  | .list l => (tomlOfAll l).map .arr
  | .map l => (tomlOfEntries l).map .table
  | _ => none
termination_by structural v => v
/-- The documents of a list of values. -/
def tomlOfAll : List Val → Option (List Toml)
  | [] => some []
  | v :: l => do
    let j ← tomlOf v
    let l ← tomlOfAll l
    pure (j :: l)
termination_by structural v => v
/-- The entries of a table. -/
def tomlOfEntries : List (Val × Val) → Option (List (Bytes × Toml))
  | [] => some []
  | e :: l => do
    let e ← tomlOfEntry e
    let l ← tomlOfEntries l
    pure (e :: l)
termination_by structural v => v
/-- One entry of a table; keys are strings. -/
def tomlOfEntry : Val × Val → Option (Bytes × Toml)
  | (.str k, v) => (tomlOf v).map fun j => (k, j)
  | _ => none
termination_by structural v => v
end

end Verif
