import Verif.Model.Val

/-!
# Values from other notations
-/

namespace Verif

/-- `serde_json::Value`. A number is either an unsigned 64-bit number, a negative signed 64-bit number
or a float; floats are not looked at. Objects are lists in the order of iteration. -/
inductive Json where
  | null
  | bool (b : Bool)
  | uint (n : BitVec 64)
  | negInt (n : BitVec 64)
  | float
  | str (s : Bytes)
  | arr (l : List Json)
  | obj (l : List (Bytes × Json))

mutual
/-- `src/value/convert.rs:28-48`: `From<serde_json::Value>`; `todo!()` panics. -/
def Json.toVal : Json → Out Unit Val
  | .null => .ok .unit
  | .bool b => .ok (Val.bool b)
  | .uint n => .ok (.num (.uint n))
  | .negInt n => .ok (.num (.int n))
  | .float => .panic
  | .str s => .ok (.str s)
  | .arr l => do
    let l ← Json.toVals l
    pure (.list l)
  | .obj l => do
    let l ← Json.toEntries l
    pure (.map l)
termination_by structural j => j
/-- `map(StrictVal::from)` over a vector. -/
def Json.toVals : List Json → Out Unit (List Val)
  | [] => .ok []
  | j :: l => do
    let v ← Json.toVal j
    let l ← Json.toVals l
    pure (v :: l)
termination_by structural j => j
/-- The entries of an object (`src/value/convert.rs:43-45`). -/
def Json.toEntries : List (Bytes × Json) → Out Unit (List (Val × Val))
  | [] => .ok []
  | e :: l => do
    let v ← Json.toEntry e
    let l ← Json.toEntries l
    pure (v :: l)
termination_by structural j => j
/-- One entry of an object. -/
def Json.toEntry : Bytes × Json → Out Unit (Val × Val)
  | (k, j) => do
    let v ← Json.toVal j
    pure (.str k, v)
termination_by structural j => j
end

/-- `serde_yaml::Value`, with the same conventions as `Json`. -/
inductive Yaml where
  | null
  | bool (b : Bool)
  | uint (n : BitVec 64)
  | negInt (n : BitVec 64)
  | float
  | str (s : Bytes)
  | seq (l : List Yaml)
  | mapping (l : List (Yaml × Yaml))
  | tagged (tag : Bytes) (y : Yaml)

mutual
/-- `src/value/convert.rs:50-71`: `From<serde_yaml::Value>`. -/
def Yaml.toVal : Yaml → Out Unit Val
  | .null => .ok .unit
  | .bool b => .ok (Val.bool b)
  | .uint n => .ok (.num (.uint n))
  | .negInt n => .ok (.num (.int n))
  | .float => .panic
  | .str s => .ok (.str s)
  | .seq l => do
    let l ← Yaml.toVals l
    pure (.list l)
  | .mapping l => do
    let l ← Yaml.toEntries l
    pure (.map l)
  | .tagged _ y => Yaml.toVal y
termination_by structural j => j
/-- `map(StrictVal::from)` over a vector. -/
def Yaml.toVals : List Yaml → Out Unit (List Val)
  | [] => .ok []
  | j :: l => do
    let v ← Yaml.toVal j
    let l ← Yaml.toVals l
    pure (v :: l)
termination_by structural j => j
/-- The entries of a mapping (`src/value/convert.rs:65-67`). The value is converted by the closure and
the key later by `StrictVal::map`; either way a failure is a panic. -/
def Yaml.toEntries : List (Yaml × Yaml) → Out Unit (List (Val × Val))
  | [] => .ok []
  | e :: l => do
    let v ← Yaml.toEntry e
    let l ← Yaml.toEntries l
    pure (v :: l)
termination_by structural j => j
/-- One entry of a mapping. -/
def Yaml.toEntry : Yaml × Yaml → Out Unit (Val × Val)
  | (k, j) => do
    let k ← Yaml.toVal k
    let v ← Yaml.toVal j
    pure (k, v)
termination_by structural j => j
end

/-- `toml::Value`; floats and dates are not looked at. -/
inductive Toml where
  | int (n : BitVec 64)
  | float
  | bool (b : Bool)
  | str (s : Bytes)
  | arr (l : List Toml)
  | table (l : List (Bytes × Toml))
  | datetime

mutual
/-- `src/value/convert.rs:73-89`: `From<toml::Value>`. -/
def Toml.toVal : Toml → Out Unit Val
  | .int n => .ok (.num (.int n))
  | .float => .panic
  | .bool b => .ok (Val.bool b)
  | .str s => .ok (.str s)
  | .arr l => do
    let l ← Toml.toVals l
    pure (.list l)
  | .table l => do
    let l ← Toml.toEntries l
    pure (.map l)
  | .datetime => .panic
termination_by structural j => j
/-- `map(StrictVal::from)` over a vector. -/
def Toml.toVals : List Toml → Out Unit (List Val)
  | [] => .ok []
  | j :: l => do
    let v ← Toml.toVal j
    let l ← Toml.toVals l
    pure (v :: l)
termination_by structural j => j
/-- The entries of a table (`src/value/convert.rs:83-85`). -/
def Toml.toEntries : List (Bytes × Toml) → Out Unit (List (Val × Val))
  | [] => .ok []
  | e :: l => do
    let v ← Toml.toEntry e
    let l ← Toml.toEntries l
    pure (v :: l)
termination_by structural j => j
/-- One entry of a table. -/
def Toml.toEntry : Bytes × Toml → Out Unit (Val × Val)
  | (k, j) => do
    let v ← Toml.toVal j
    pure (.str k, v)
termination_by structural j => j
end

end Verif
