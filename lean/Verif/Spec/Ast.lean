import Verif.Spec.Ty

/-!
# Specification vocabulary for the accessors of the type syntax
-/

namespace Verif
variable {α β σ ε : Type}

/-- Numbered items of a list, starting from `k`. -/
def numbered : Nat → List α → List (Nat × α)
  | _, [] => []
  | k, a :: as => (k, a) :: numbered (k + 1) as

/-- The direct references of a type in declaration order with the place each one has in the type. -/
def Ty.items : Ty α → List (α × Ty.ItemCase)
  | .primitive _ => []
  | .unicodeChar => []
  | .enum _ => []
  | .union vs => (numbered 0 vs).map fun p => (p.2.2, .unionVariant (BitVec.ofNat 8 p.1) p.2.1.name)
  | .struct fs => (numbered 0 fs).map fun p => (p.2.2, .namedField (BitVec.ofNat 8 p.1) p.2.1)
  | .tuple fs => (numbered 0 fs).map fun p => (p.2, .unnamedField (BitVec.ofNat 8 p.1))
  | .array t _ => [(t, .arrayItem)]
  | .list t _ => [(t, .listItem)]
  | .set t _ => [(t, .setItem)]
  | .map k t _ => [(k, .mapKey), (t, .mapValue)]

/-- What one path step means for a type. -/
def Ty.SpecStep : Ty α → Ty.Step → α → Prop
  | .struct fs, .namedField n, r => (n, r) ∈ fs
  | .struct fs, .unnamedField i, r => ∃ n, fs[i.toNat]? = some (n, r)
  | .tuple fs, .unnamedField i, r => fs[i.toNat]? = some r
  | .union vs, .variant n, r => ∃ tag, (⟨n, tag⟩, r) ∈ vs
  | .union vs, .unnamedField i, r => ∃ n, (⟨n, i⟩, r) ∈ vs
  | .array t _, .index, r => r = t
  | .list t _, .list, r => r = t
  | .set t _, .set, r => r = t
  | .map k _ _, .mapKey, r => r = k
  | .map _ t _, .mapValue, r => r = t
  | _, _, _ => False

/-- Following a path from a type, one step after another. -/
inductive Ty.Follows (asTy : α → Option (Ty α)) : Ty α → List Ty.Step → Ty α → Prop
  | nil (t : Ty α) : Follows asTy t [] t
  | cons {t u v : Ty α} {s : Ty.Step} {p : List Ty.Step} {r : α} :
    t.SpecStep s r → asTy r = some u → Follows asTy u p v → Follows asTy t (s :: p) v

/-- Applying a state-changing function to the elements of a list from left to right. -/
inductive Runs (f : α → σ → Out ε (β × σ)) : List α → σ → List β → σ → Prop
  | nil (s : σ) : Runs f [] s [] s
  | cons {a : α} {b : β} {as : List α} {bs : List β} {s s' s'' : σ} :
    f a s = .ok (b, s') → Runs f as s' bs s'' → Runs f (a :: as) s (b :: bs) s''

/-- The type with its references replaced one by one by the listed ones: same class, names, tags,
lengths and sizings. -/
def Ty.Replaced : Ty α → List β → Ty β → Prop
  | .primitive c, [], u => u = .primitive c
  | .unicodeChar, [], u => u = .unicodeChar
  | .enum vs, [], u => u = .enum vs
  | .union vs, bs, u => bs.length = vs.length ∧ u = .union ((vs.map Prod.fst).zip bs)
  | .struct fs, bs, u => bs.length = fs.length ∧ u = .struct ((fs.map Prod.fst).zip bs)
  | .tuple fs, bs, u => bs.length = fs.length ∧ u = .tuple bs
  | .array _ n, [b], u => u = .array b n
  | .list _ s, [b], u => u = .list b s
  | .set _ s, [b], u => u = .set b s
  | .map _ _ s, [k, b], u => u = .map k b s
  | _, _, _ => False

/-- Names, tags, lengths kept, every reference replaced by its image. -/
def Ty.mapRefs (g : α → β) : Ty α → Ty β
  | .primitive c => .primitive c
  | .unicodeChar => .unicodeChar
  | .enum vs => .enum vs
  | .union vs => .union (vs.map fun p => (p.1, g p.2))
  | .struct fs => .struct (fs.map fun p => (p.1, g p.2))
  | .tuple fs => .tuple (fs.map g)
  | .array t n => .array (g t) n
  | .list t s => .list (g t) s
  | .set t s => .set (g t) s
  | .map k t s => .map (g k) (g t) s

end Verif
