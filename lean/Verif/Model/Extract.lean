import Verif.Model.Refs

/-!
# Extraction of a part of a type system
-/

namespace Verif

/-- `for (id, _) in ty.iter()` (`src/ast/iter.rs:97-106`): the references seen by a loop over the
borrowing iterator. At most 255 references and the final `None` are produced, so 257 calls are
enough. -/
def Ty.iterRefs {Ref ε : Type} (debug : Bool) (t : Ty Ref) : Out ε (List Ref) :=
  match Ty.collectIter (Ty.iterNext debug) 257 (Ty.iterStart t) with
  | .ok l => .ok (l.map Prod.fst)
  | .err _ => .panic
  | .panic => .panic
  | .diverge => .diverge

/-- `src/typesys/type_sys.rs:146-151`: the loop of `extract`. The error is the missing id. -/
def extractLoop (debug : Bool) (sys : TypeSystem) :
    Nat → OSet SemId → OSet SemId → TypeSystem → Out SemId TypeSystem
  | 0, _, _, _ => .diverge
  | _ + 1, [], _, ex => .ok ex
  | fuel + 1, id :: ids, found, ex =>
    match sys.get id with
    | none => .err id
    | some ty => do
      let found := OSet.insert found id
      let refs ← ty.iterRefs debug
      let ids := OSet.extend ids (refs.filter fun r => !found.contains r)
      extractLoop debug sys fuel ids found (OMap.insert ex id ty)

/-- `src/typesys/type_sys.rs:141-154`: `TypeSystem::extract`. The final `Confined::from_checked`
cannot fail since the result has at most as many types as the system. -/
def extract (debug : Bool) (fuel : Nat) (sys : TypeSystem) (ids : List SemId) :
    Out SemId TypeSystem :=
  extractLoop debug sys fuel (OSet.extend [] ids) [] []

end Verif
