import Verif.Lemmas.StonTyped
import Verif.Props.Codec

/-!
# Property C52: the text of a value
-/

namespace Verif

/-- Two texts: `a", "b`, and `a` and `b`. -/
def exQuoted : Val × Val :=
  (.list [.str b!"a\", \"b"], .list [.str b!"a", .str b!"b"])

/-- **C52 is violated**: values of one type (a list of unicode strings) have the same text, because
strings are not escaped; and values of different types have the same text: numbers of different
kinds and ordinals of enums, an empty set and an empty map, a tuple of one item and the item, an
empty tuple and an empty structure. -/
theorem C52_text_violated :
    (∃ (E : Env) (v w : Val) (id : SemId), E.Sane ∧ WellTyped E v id ∧ WellTyped E w id ∧
      v ≠ w ∧ v.ston = w.ston) ∧
    (∃ n m : Num, n ≠ m ∧ Val.ston (.num n) = Val.ston (.num m)) ∧
    (∃ n t, Val.ston (.num n) = Val.ston (.enum t)) ∧
    Val.ston (.set []) = Val.ston (.map []) ∧ (∀ v, v.needsParens = false → Val.ston (.tuple [v]) = v.ston) ∧
    Val.ston (.tuple []) = Val.ston (.struct []) ∧
    (∃ t u, t ≠ u ∧ Val.ston (.union t .unit) = Val.ston (.union u .unit)) := by
  refine ⟨⟨exWith true [(SemId.unicodeChar toyHash, .unicodeChar),
      (Id32.rep 2, .list (SemId.unicodeChar toyHash) ⟨0, 65535⟩), (Id32.rep 3, .list (Id32.rep 2) ⟨0, 255⟩)],
      exQuoted.1, exQuoted.2, Id32.rep 3, ?_, ⟨2, _, rfl, ?_⟩, ⟨2, _, rfl, ?_⟩, by simp [exQuoted], by decide⟩,
    ⟨.uint 5, .int 5, by simp, by decide⟩, ⟨.uint 5, .ord 5, by decide⟩, rfl, ?_, rfl,
    ⟨.ord 0, .name Ty.noneName, by simp, rfl⟩⟩
  · exact Env.sane_of_saneB (by decide +kernel)
  · refine .list rfl rfl ?_ (by unfold InMemory; decide) (by unfold SizeOk; decide) ?_
    · rintro C ⟨h, -⟩; cases h
    · intro v hv
      simp only [List.mem_cons, List.not_mem_nil, or_false] at hv
      subst hv
      exact ⟨_, rfl, .unicodeList rfl rfl ((utf8Valid_iff _).1 (by decide)) (by unfold SizeOk; decide)⟩
  · refine .list rfl rfl ?_ (by unfold InMemory; decide) (by unfold SizeOk; decide) ?_
    · rintro C ⟨h, -⟩; cases h
    · intro v hv
      simp only [List.mem_cons, List.not_mem_nil, or_false] at hv
      rcases hv with rfl | rfl <;>
        exact ⟨_, rfl, .unicodeList rfl rfl ((utf8Valid_iff _).1 (by decide)) (by unfold SizeOk; decide)⟩
  · intro v h
    simp [Val.ston, Val.stonItems, parens, h]

/-- **C52, what holds**: well-typed values of the same type whose strings contain no quotation mark
have different text if they are different. Missing: strings with quotation marks and values of
different types (`C52_text_violated`). -/
theorem C52_text_partial (E : Env) (hE : E.Sane) (id : SemId) (v w : Val) (hv : WellTyped E v id)
    (hw : WellTyped E w id) (qv : v.QuoteFree) (qw : w.QuoteFree) (h : v.ston = w.ston) : v = w := by
  obtain ⟨n, hv⟩ := hv
  obtain ⟨m, hw⟩ := hw
  exact (typed_apart hE.wf hv hw).eq qv qw h

/-- **C52 for decoded values**: the same for values that were decoded from bytes, which need not
respect the sizes and alphabets of the type. -/
theorem C52_decoded_partial (E : Env) (hE : E.Sane) (hsm : E.SmallStrings) (id : SemId) (f g : Nat)
    (bs bs' rest rest' : Bytes) (v w : Val) (hv : read E f id bs = .ok (v, rest))
    (hw : read E g id bs' = .ok (w, rest')) (qv : v.QuoteFree) (qw : w.QuoteFree) (h : v.ston = w.ston) :
    v = w :=
  (typed_apart hE.wf (C32_shape_partial E hE hsm f id bs rest v hv)
    (C32_shape_partial E hE hsm g id bs' rest' w hw)).eq qv qw h

/-- **C52, the form of byte strings**: two lower case hexadecimal digits for each byte. -/
theorem C52_bytes_form (b : Bytes) :
    (Val.bytes b).ston = b!"0x" ++ b.flatMap fun x =>
      [b!"0123456789abcdef".getD (x.toNat / 16) 0, b!"0123456789abcdef".getD (x.toNat % 16) 0] := by
  have hd : ∀ n, n < 16 → hexDigit n = b!"0123456789abcdef".getD n 0 := by decide
  simp only [Val.ston, toHex]
  congr 1
  induction b with
  | nil => rfl
  | cons x b ih =>
    have hx := x.isLt
    rw [List.flatMap_cons, List.flatMap_cons, ih, hd _ (by omega), hd _ (by omega)]

/-- Two bytes. -/
example : (Val.bytes [0x0f#8, 0xa0#8]).ston = b!"0x0fa0" := by decide +kernel

/-- **C52, the form of absent options**: a union value is shown as `~` exactly when it is the unit value
of the variant `none`, or of the variant with tag 0. -/
theorem C52_none_form (t : Tag) (v : Val) :
    (Val.union t v).ston = b!"~" ↔ v = .unit ∧ (t = .ord 0 ∨ t = .name n!"none") := by
  constructor
  · intro h
    simp only [Val.ston] at h
    split at h
    · rename_i hn
      cases v with
      | unit => exact ⟨rfl, of_decide_eq_true hn⟩
      | _ => exact absurd hn (by simp [Val.isNoneText])
    · have hm : (46 : Byte) ∈ b!"~" := by rw [← h]; simp
      exact absurd hm (by decide)
  · rintro ⟨rfl, ht⟩
    have : Val.isNoneText t .unit = true := decide_eq_true ht
    simp only [Val.ston, this, if_true]

/-- The second variant of a union, and an absent option. -/
example : (Val.union (.ord 1) .unit).ston = b!"(,).1" ∧ (Val.union (.name n!"none") .unit).ston = b!"~" := by
  decide +kernel

/-- The value of the example has no quotation marks. -/
example : exVal.QuoteFree := by
  refine .struct fun f hf => ?_
  simp only [List.mem_cons, List.not_mem_nil, or_false] at hf
  rcases hf with rfl | rfl | rfl
  · refine .map ?_ ?_ <;> intro p hp <;> simp only [List.mem_cons, List.not_mem_nil, or_false] at hp <;> subst hp
    · exact .str (by decide)
    · refine .set fun v hv => ?_
      simp only [List.mem_cons, List.not_mem_nil, or_false] at hv
      rcases hv with rfl | rfl <;> exact .num
  · refine .tuple fun v hv => ?_
    simp only [List.mem_cons, List.not_mem_nil, or_false] at hv
    rcases hv with rfl | rfl
    · exact .num
    · exact .union (.str (by decide))
  · exact .bytes

/-- The value of the example is well typed. -/
example : (exE true).Sane ∧ WellTyped (exE true) exVal (Id32.rep 14) :=
  ⟨Env.sane_of_saneB (by decide +kernel), 4, exVal_wellTyped true⟩

/-- Its text. -/
example : exVal.ston = b!"x {\"AB\" -> {7, 9}}, y (-2, \"C\".some), z 0x010203" := by decide +kernel

end Verif
