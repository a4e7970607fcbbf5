import Verif.Model.Val

/-!
# Specification vocabulary for the text of values
-/

namespace Verif

/-- No string in the value contains a quotation mark. -/
inductive Val.QuoteFree : Val → Prop
  | unit : QuoteFree .unit
  | num {n : Num} : QuoteFree (.num n)
  | str {s : Bytes} : (34 : Byte) ∉ s → QuoteFree (.str s)
  | bytes {b : Bytes} : QuoteFree (.bytes b)
  | enum {t : Tag} : QuoteFree (.enum t)
  | union {t : Tag} {v : Val} : QuoteFree v → QuoteFree (.union t v)
  | tuple {l : List Val} : (∀ v ∈ l, QuoteFree v) → QuoteFree (.tuple l)
  | struct {fs : List (Name × Val)} : (∀ f ∈ fs, QuoteFree f.2) → QuoteFree (.struct fs)
  | list {l : List Val} : (∀ v ∈ l, QuoteFree v) → QuoteFree (.list l)
  | set {l : List Val} : (∀ v ∈ l, QuoteFree v) → QuoteFree (.set l)
  | map {l : List (Val × Val)} : (∀ p ∈ l, QuoteFree p.1) → (∀ p ∈ l, QuoteFree p.2) → QuoteFree (.map l)

end Verif
