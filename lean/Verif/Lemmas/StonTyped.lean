import Verif.Lemmas.Ston
import Verif.Lemmas.Commit

/-!
# The text of a typed value determines it
-/

namespace Verif

/-- What is shown for two values of a type. -/
def Apart (a b : Val) : Prop :=
  a.QuoteFree → b.QuoteFree → a.needsParens = b.needsParens ∧
    ∀ r s, Stops r → Stops s → a.ston ++ r = b.ston ++ s → a = b ∧ r = s

theorem Apart.eq {a b : Val} (h : Apart a b) (ha : a.QuoteFree) (hb : b.QuoteFree) (hs : a.ston = b.ston) :
    a = b := ((h ha hb).2 [] [] stops_nil stops_nil (by simpa using hs)).1

theorem parens_inj {b : Bool} {s t : Bytes} (h : parens b s = parens b t) : s = t := by
  unfold parens at h
  split at h
  · simpa using h
  · exact h

theorem Apart.item {a b : Val} (h : Apart a b) (ha : a.QuoteFree) (hb : b.QuoteFree) (hs : a.item = b.item) :
    a = b := by
  refine h.eq ha hb ?_
  unfold Val.item at hs
  rw [(h ha hb).1] at hs
  exact parens_inj hs

/-- Values shown without parentheses. -/
theorem Apart.of_closed {a b : Val} (pa : a.needsParens = false) (pb : b.needsParens = false)
    (h : a.QuoteFree → b.QuoteFree → a.ston = b.ston → a = b) : Apart a b := by
  intro ha hb
  refine ⟨by rw [pa, pb], fun r s hr hs he => ?_⟩
  have ca := ha.textOk
  have cb := hb.textOk
  unfold Val.TextOk at ca cb
  rw [pa] at ca
  rw [pb] at cb
  obtain ⟨h1, h2⟩ := Closed.extent ca cb hr hs he
  exact ⟨h ha hb h1, h2⟩

theorem items_eq {P : Val → Val → Prop} : ∀ {l m : List Val}, l.map Val.item = m.map Val.item →
    (∀ a ∈ l, a.QuoteFree) → (∀ a ∈ m, a.QuoteFree) → (∀ a ∈ l, ∀ b ∈ m, Apart a b) → l = m
  | [], [], _, _, _, _ => rfl
  | [], _ :: _, h, _, _, _ => by simp at h
  | _ :: _, [], h, _, _, _ => by simp at h
  | a :: l, b :: m, h, ha, hb, hp => by
    simp only [List.map_cons, List.cons.injEq] at h
    rw [(hp a (by simp) b (by simp)).item (ha a (by simp)) (hb b (by simp)) h.1,
      items_eq (P := P) h.2 (fun x hx => ha x (by simp [hx])) (fun x hx => hb x (by simp [hx]))
        fun x hx y hy => hp x (by simp [hx]) y (by simp [hy])]

variable {R S : Val → SemId → Prop}

theorem tuple_eq (hRS : ∀ a b id, R a id → S b id → Apart a b) : ∀ {l m : List Val} {ids : List SemId},
    All2 R l ids → All2 S m ids → l.map Val.item = m.map Val.item →
    (∀ a ∈ l, a.QuoteFree) → (∀ a ∈ m, a.QuoteFree) → l = m
  | [], [], _, _, _, _, _, _ => rfl
  | [], _ :: _, _, _, _, h, _, _ => by simp at h
  | _ :: _, [], _, _, _, h, _, _ => by simp at h
  | a :: l, b :: m, [], hl, _, _, _, _ => hl.elim
  | a :: l, b :: m, _ :: ids, hl, hm, h, ha, hb => by
    simp only [List.map_cons, List.cons.injEq] at h
    rw [(hRS a b _ hl.1 hm.1).item (ha a (by simp)) (hb b (by simp)) h.1,
      tuple_eq hRS hl.2 hm.2 h.2 (fun x hx => ha x (by simp [hx])) (fun x hx => hb x (by simp [hx]))]

theorem struct_names : ∀ {l : List (Name × Val)} {req : List (Name × SemId)},
    All2 (fun f r => f.1 = r.1 ∧ R f.2 r.2) l req → l.map Prod.fst = req.map Prod.fst
  | [], [], _ => rfl
  | [], _ :: _, h => h.elim
  | _ :: _, [], h => h.elim
  | f :: l, r :: req, h => by
    simp only [List.map_cons, h.1.1]
    rw [struct_names h.2]

theorem struct_eq (hRS : ∀ a b id, R a id → S b id → Apart a b) :
    ∀ {l m : List (Name × Val)} {req : List (Name × SemId)},
    All2 (fun f r => f.1 = r.1 ∧ R f.2 r.2) l req → All2 (fun f r => f.1 = r.1 ∧ S f.2 r.2) m req →
    (l.map fun f => f.2.item) = (m.map fun f => f.2.item) →
    (∀ f ∈ l, f.2.QuoteFree) → (∀ f ∈ m, f.2.QuoteFree) → l = m
  | [], [], _, _, _, _, _, _ => rfl
  | [], _ :: _, _, _, _, h, _, _ => by simp at h
  | _ :: _, [], _, _, _, h, _, _ => by simp at h
  | a :: l, b :: m, [], hl, _, _, _, _ => hl.elim
  | (n, a) :: l, (n', b) :: m, _ :: ids, hl, hm, h, ha, hb => by
    simp only [List.map_cons, List.cons.injEq] at h
    have h1 := (hRS a b _ hl.1.2 hm.1.2).item (ha (n, a) (by simp)) (hb (n', b) (by simp)) h.1
    have h2 : n = n' := hl.1.1.trans hm.1.1.symm
    rw [h1, h2, struct_eq hRS hl.2 hm.2 h.2 (fun x hx => ha x (by simp [hx])) (fun x hx => hb x (by simp [hx]))]

theorem pairs_eq (hRS : ∀ a b id, R a id → S b id → Apart a b) {k id : SemId} :
    ∀ {l m : List (Val × Val)}, (∀ p ∈ l, R p.1 k ∧ R p.2 id) → (∀ p ∈ m, S p.1 k ∧ S p.2 id) →
    (∀ p ∈ l, p.1.QuoteFree ∧ p.2.QuoteFree) → (∀ p ∈ m, p.1.QuoteFree ∧ p.2.QuoteFree) →
    Val.stonPairs l = Val.stonPairs m → l = m
  | [], [], _, _, _, _, _ => rfl
  | [], (a, b) :: m, _, _, _, _, h => by rw [stonPairs_cons] at h; simp [Val.stonPairs] at h
  | (a, b) :: l, [], _, _, _, _, h => by rw [stonPairs_cons] at h; simp [Val.stonPairs] at h
  | (a, b) :: l, (c, d) :: m, hl, hm, ql, qm, h => by
    rw [stonPairs_cons, stonPairs_cons] at h
    obtain ⟨hl1, hl2⟩ := hl (a, b) (by simp)
    obtain ⟨hm1, hm2⟩ := hm (c, d) (by simp)
    obtain ⟨qa, qb⟩ := ql (a, b) (by simp)
    obtain ⟨qc, qd⟩ := qm (c, d) (by simp)
    obtain ⟨h1, h2⟩ := (hRS a c k hl1 hm1 qa qc).2 _ _ (stops_arrow _) (stops_arrow _) h
    have h2 := List.append_cancel_left h2
    obtain ⟨h3, h4⟩ := qb.textOk.item.extent qd.textOk.item
      (stops_ifSep l fun hl => by subst hl; exact stops_nil)
      (stops_ifSep m fun hl => by subst hl; exact stops_nil) h2
    have h5 : Val.stonPairs l = Val.stonPairs m := by
      cases l <;> cases m <;> simp_all [Val.stonPairs]
    rw [h1, (hRS b d id hl2 hm2).item qb qd h3,
      pairs_eq hRS (fun x hx => hl x (by simp [hx])) (fun x hx => hm x (by simp [hx]))
        (fun x hx => ql x (by simp [hx])) (fun x hx => qm x (by simp [hx])) h5]

/-- The part of a text after its last dot. -/
theorem last_dot_inj {a b s t : Bytes} (hs : (46 : Byte) ∉ s) (ht : (46 : Byte) ∉ t)
    (h : a ++ b!"." ++ s = b ++ b!"." ++ t) : a = b ∧ s = t := by
  have h := congrArg List.reverse h
  simp only [List.reverse_append, List.append_assoc] at h
  obtain ⟨h1, h2⟩ := append_span (p := fun x => x ≠ (46 : Byte))
    (by intro x hx; simp only [List.mem_reverse] at hx; simp; rintro rfl; exact hs hx)
    (by intro x hx; simp only [List.mem_reverse] at hx; simp; rintro rfl; exact ht hx)
    (by simp) (by simp) h
  exact ⟨by simpa using h2, by simpa using h1⟩

theorem Name.no_dot (n : Name) : (46 : Byte) ∉ n.bytes := n.isWord.not_mem (by decide)

theorem Name.eq_of_bytes {m n : Name} (h : m.bytes = n.bytes) : m = n := by
  cases m; cases n; simp_all

theorem prim_inv {E : Env} {b : Bool} {v : Val} {p : Byte} (h : Inhabits E b R v (.primitive p)) :
    (p.toNat = 0 ∧ v = .unit) ∨ (∃ x, v = .num (.uint x) ∧ (1 ≤ p.toNat ∧ p.toNat ≤ 8 ∨ p.toNat = 0x40)) ∨
    (∃ x, v = .num (.bigUint x) ∧ 8 < p.toNat ∧ p.toNat < 0x40) ∨
    (∃ x, v = .num (.int x) ∧ 0x40 < p.toNat ∧ p.toNat ≤ 0x48) ∨
    (∃ x, v = .num (.bigInt x) ∧ 0x48 < p.toNat ∧ p.toNat < 0x80) := by
  generalize ht : Ty.primitive p = t at h
  cases h <;> first | (exfalso; exact Ty.noConfusion rfl (heq_of_eq ht)) | skip
  all_goals simp only [Ty.UNIT, Ty.BYTE, Ty.primitive.injEq] at ht
  all_goals subst ht
  · exact .inl ⟨rfl, rfl⟩
  · rename_i n _ h1 h2 _
    refine .inr (.inl ⟨_, rfl, .inl ?_⟩)
    simp only [BitVec.toNat_ofNat]; omega
  · exact .inr (.inl ⟨_, rfl, .inr rfl⟩)
  · rename_i n _ h1 h2 _ _
    refine .inr (.inr (.inr (.inl ⟨_, rfl, ?_⟩)))
    simp only [BitVec.toNat_ofNat]; omega
  · exact .inr (.inr (.inl ⟨_, rfl, by assumption, by assumption⟩))
  · exact .inr (.inr (.inr (.inr ⟨_, rfl, by assumption, by assumption⟩)))

theorem num_ston (n : Num) : Val.ston (.num n) = n.display := rfl

theorem prim_eq {E F : Env} {b c : Bool} {v w : Val} {p : Byte} (h : Inhabits E b R v (.primitive p))
    (h' : Inhabits F c S w (.primitive p)) : Apart v w := by
  rcases prim_inv h with ⟨hp, rfl⟩ | ⟨x, rfl, hp⟩ | ⟨x, rfl, hp⟩ | ⟨x, rfl, hp⟩ | ⟨x, rfl, hp⟩ <;>
  rcases prim_inv h' with ⟨hq, rfl⟩ | ⟨y, rfl, hq⟩ | ⟨y, rfl, hq⟩ | ⟨y, rfl, hq⟩ | ⟨y, rfl, hq⟩ <;>
  first
  | (exfalso; omega)
  | (refine .of_closed rfl rfl fun _ _ hs => ?_)
  · rfl
  all_goals rw [num_ston, num_ston] at hs
  all_goals simp only [Num.display] at hs
  · rw [BitVec.eq_of_toNat_eq (decimal_inj hs)]
  · rw [BitVec.eq_of_toNat_eq (decimal_inj hs)]
  · rw [BitVec.eq_of_toInt_eq (decimalInt_inj hs)]
  · rw [BitVec.eq_of_toInt_eq (decimalInt_inj hs)]

theorem union_eq (hRS : ∀ a b id, R a id → S b id → Apart a b) {vs : List (Variant × SemId)}
    (hwf : VariantsWF (vs.map Prod.fst)) {n m : Name} {t u : Byte} {i j : SemId} {v w : Val}
    (hi : (⟨n, t⟩, i) ∈ vs) (hj : (⟨m, u⟩, j) ∈ vs) (hv : R v i) (hw : S w j) (qv : v.QuoteFree)
    (qw : w.QuoteFree) (h : Val.ston (.union (.name n) v) = Val.ston (.union (.name m) w)) :
    Val.union (.name n) v = .union (.name m) w := by
  have dot : ∀ (a s : Bytes), b!"~" ≠ a ++ b!"." ++ s := by
    intro a s h
    have : (46 : Byte) ∈ b!"~" := by rw [h]; simp
    revert this; decide
  have inv : ∀ {n : Name} {v : Val}, v.isNoneText (.name n) = true → v = .unit ∧ n = Ty.noneName := by
    intro n v h
    cases v <;> simp [Val.isNoneText] at h
    exact ⟨rfl, h⟩
  unfold Val.ston at h
  split at h <;> split at h
  · rename_i h1 h2
    obtain ⟨rfl, rfl⟩ := inv h1
    obtain ⟨rfl, rfl⟩ := inv h2
    rfl
  · exact absurd h (dot _ _)
  · exact absurd h.symm (dot _ _)
  · obtain ⟨h1, h2⟩ := last_dot_inj n.no_dot m.no_dot h
    have hn := Name.eq_of_bytes h2
    subst hn
    have e := hwf.name_inj (List.mem_map_of_mem hi) (List.mem_map_of_mem hj) rfl
    simp only [Variant.mk.injEq, true_and] at e
    subst e
    have hij := pair_unique hwf hi hj rfl
    simp only [Prod.mk.injEq, true_and] at hij
    subst hij
    rw [(hRS v w _ hv hw).item qv qw h1]

theorem QuoteFree.inv_items {l : List Val} {v : Val} (h : v.QuoteFree)
    (hv : v = .tuple l ∨ v = .list l ∨ v = .set l) : ∀ a ∈ l, a.QuoteFree := by
  rcases hv with rfl | rfl | rfl <;> cases h <;> assumption

theorem tuple_parens : ∀ {l m : List Val}, l.length = m.length →
    (Val.tuple l).needsParens = (Val.tuple m).needsParens
  | [], [], _ => rfl
  | [_], [_], _ => rfl
  | _ :: _ :: _, _ :: _ :: _, _ => rfl

/-- Two values of the same type. -/
theorem layer_apart {E : Env} {b c : Bool} (hRS : ∀ a b id, R a id → S b id → Apart a b) {t : Ty SemId}
    (hwf : t.WF) {v w : Val} (hv : Inhabits E b R v t) (hw : Inhabits E c S w t) : Apart v w := by
  cases t with
  | primitive p => exact prim_eq hv hw
  | unicodeChar =>
    cases hv; cases hw
    exact .of_closed rfl rfl fun _ _ hs => by simp [Val.ston] at hs; rw [hs]
  | enum vs =>
    cases hv; cases hw
    exact .of_closed rfl rfl fun _ _ hs => by
      simp only [Val.ston, Tag.display] at hs; rw [Name.eq_of_bytes hs]
  | union vs =>
    cases hv with | union hi hv => cases hw with | union hj hw =>
    refine .of_closed rfl rfl fun qa qb hs => ?_
    cases qa; cases qb
    exact union_eq hRS hwf hi hj hv hw (by assumption) (by assumption) hs
  | tuple ids =>
    have str : ∀ {s t : Bytes}, Apart (.str s) (.str t) := fun {s t} =>
      .of_closed rfl rfl fun _ _ hs => by simp [Val.ston] at hs; rw [hs]
    cases hv with
    | tuple hn hv =>
      cases hw with
      | tuple _ hw =>
        intro qa qb
        have qa := QuoteFree.inv_items qa (.inl rfl)
        have qb := QuoteFree.inv_items qb (.inl rfl)
        have hlen := (all2_length hv).trans (all2_length hw).symm
        refine ⟨?_, fun r s hr hs h => ?_⟩
        · exact tuple_parens hlen
        · obtain ⟨h1, h2⟩ := stonItems_extent hlen (fun x hx => (qa x hx).textOk)
            (fun x hx => (qb x hx).textOk) hr hs h
          exact ⟨by rw [tuple_eq hRS hv hw h1 qa qb], h2⟩
      | rstring h => exact absurd h (hn _ _ _)
      | rstringEmpty h => exact absurd h (hn _ _ _)
    | rstring h =>
      cases hw with
      | tuple hn => exact absurd h (hn _ _ _)
      | rstring => exact str
      | rstringEmpty => exact str
    | rstringEmpty h =>
      cases hw with
      | tuple hn => exact absurd h (hn _ _ _)
      | rstring => exact str
      | rstringEmpty => exact str
  | struct req =>
    cases hv with | struct hv => cases hw with | struct hw =>
    intro qa qb
    refine ⟨rfl, fun r s hr hs h => ?_⟩
    cases qa with | struct qa => cases qb with | struct qb =>
    obtain ⟨h1, h2⟩ := stonFields_extent ((struct_names hv).trans (struct_names hw).symm)
      (fun x hx => (qa x hx).textOk) (fun x hx => (qb x hx).textOk) hr hs h
    exact ⟨by rw [struct_eq hRS hv hw h1 qa qb], h2⟩
  | array id len =>
    cases hv with
    | byteArray h =>
      cases hw with
      | byteArray =>
        exact .of_closed rfl rfl fun _ _ hs => by
          simp only [Val.ston] at hs; rw [toHex_inj (List.append_cancel_left hs)]
      | array h' => rw [h] at h'; exact absurd h' (by simp)
    | array h _ hv =>
      cases hw with
      | byteArray h' => rw [h] at h'; exact absurd h' (by simp)
      | array _ _ hw =>
        refine .of_closed rfl rfl fun qa qb hs => ?_
        have qa := QuoteFree.inv_items qa (.inr (.inl rfl))
        have qb := QuoteFree.inv_items qb (.inr (.inl rfl))
        simp only [Val.ston, List.append_cancel_left_eq, List.append_cancel_right_eq] at hs
        rw [items_eq (P := fun _ _ => True) (stonItems_inj (fun x hx => (qa x hx).textOk) (fun x hx => (qb x hx).textOk) hs)
          qa qb fun x hx y hy => hRS x y _ (hv x hx) (hw y hy)]
  | list id sz =>
    have str : ∀ {s t : Bytes}, Apart (.str s) (.str t) := fun {s t} =>
      .of_closed rfl rfl fun _ _ hs => by simp [Val.ston] at hs; rw [hs]
    have byt : ∀ {s t : Bytes}, Apart (.bytes s) (.bytes t) := fun {s t} =>
      .of_closed rfl rfl fun _ _ hs => by
        simp only [Val.ston] at hs; rw [toHex_inj (List.append_cancel_left hs)]
    have mix : ∀ {s t : Bytes}, Apart (.str s) (.bytes t) := fun {s t} =>
      .of_closed rfl rfl fun _ _ hs => by simp [Val.ston] at hs
    have mix' : ∀ {s t : Bytes}, Apart (.bytes s) (.str t) := fun {s t} =>
      .of_closed rfl rfl fun _ _ hs => by simp [Val.ston] at hs
    cases hv with
    | asciiList h =>
      cases hw with
      | asciiList => exact str
      | byteList => exact mix
      | unicodeList => exact str
      | list _ _ hn => exact absurd h (hn _)
    | byteList h =>
      cases hw with
      | asciiList => exact mix'
      | byteList => exact byt
      | unicodeList => exact mix'
      | list h' => rw [h] at h'; exact absurd h' (by simp)
    | unicodeList _ h =>
      cases hw with
      | asciiList => exact str
      | byteList => exact mix
      | unicodeList => exact str
      | list _ h' => rw [h] at h'; exact absurd h' (by simp)
    | list h h1 h2 _ _ hv =>
      cases hw with
      | asciiList h' => exact absurd h' (h2 _)
      | byteList h' => rw [h] at h'; exact absurd h' (by simp)
      | unicodeList _ h' => rw [h1] at h'; exact absurd h' (by simp)
      | list _ _ _ _ _ hw =>
        refine .of_closed rfl rfl fun qa qb hs => ?_
        have qa := QuoteFree.inv_items qa (.inr (.inl rfl))
        have qb := QuoteFree.inv_items qb (.inr (.inl rfl))
        simp only [Val.ston, List.append_cancel_left_eq, List.append_cancel_right_eq] at hs
        rw [items_eq (P := fun _ _ => True) (stonItems_inj (fun x hx => (qa x hx).textOk) (fun x hx => (qb x hx).textOk) hs)
          qa qb fun x hx y hy => hRS x y _ (hv x hx) (hw y hy)]
  | set id sz =>
    cases hv with | set _ _ hv => cases hw with | set _ _ hw =>
    refine .of_closed rfl rfl fun qa qb hs => ?_
    have qa := QuoteFree.inv_items qa (.inr (.inr rfl))
    have qb := QuoteFree.inv_items qb (.inr (.inr rfl))
    simp only [Val.ston, List.append_cancel_left_eq, List.append_cancel_right_eq] at hs
    rw [items_eq (P := fun _ _ => True) (stonItems_inj (fun x hx => (qa x hx).textOk) (fun x hx => (qb x hx).textOk) hs)
      qa qb fun x hx y hy => hRS x y _ (hv x hx) (hw y hy)]
  | map k id sz =>
    cases hv with | map _ _ hv => cases hw with | map _ _ hw =>
    refine .of_closed rfl rfl fun qa qb hs => ?_
    cases qa with | map qa qa' => cases qb with | map qb qb' =>
    simp only [Val.ston, List.append_cancel_left_eq, List.append_cancel_right_eq] at hs
    rw [pairs_eq hRS hv hw (fun p hp => ⟨qa p hp, qa' p hp⟩) (fun p hp => ⟨qb p hp, qb' p hp⟩) hs]

theorem typed_apart {E : Env} {b c : Bool} (hwf : ∀ id t, E.find id = some t → t.WF) : ∀ {n m : Nat} {v w : Val}
    {id : SemId}, HasTyN E b n v id → HasTyN E c m w id → Apart v w
  | 0, _, _, _, _, h, _ => h.elim
  | _, 0, _, _, _, _, h => h.elim
  | n + 1, m + 1, _, _, id, ⟨t, ht, hv⟩, ⟨u, hu, hw⟩ => by
    rw [ht] at hu
    obtain rfl := Option.some.inj hu
    exact layer_apart (R := HasTyN E b n) (S := HasTyN E c m) (fun x y i ha hb => typed_apart hwf ha hb)
      (hwf _ _ ht) hv hw

end Verif
