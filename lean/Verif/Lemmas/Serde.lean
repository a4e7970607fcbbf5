import Verif.Spec.Serde
import Verif.Lemmas.Basic
import Verif.Lemmas.Convert

/-!
# Lemmas about values through `serde`
-/

namespace Verif

theorem BigNums.read_silent {B : BigNums} {j : Json} (h : B.Silent j) (hu : ∀ n, j ≠ .uint n)
    (hn : ∀ n, j ≠ .negInt n) : B.read j = none := by
  cases j <;> simp_all [BigNums.read, BigNums.Silent]

theorem Tag.ofJson_toJson (t : Tag) : Tag.ofJson t.toJson = some t := by
  cases t with
  | name n => simp [Tag.toJson, Tag.ofJson]
  | ord t =>
    have := t.isLt
    have h : (t.setWidth 64).toNat = t.toNat := by
      rw [BitVec.toNat_setWidth]; omega
    simp only [Tag.toJson, Tag.ofJson, h]
    rw [if_pos (by omega)]
    congr 1
    congr 1
    apply BitVec.eq_of_toNat_eq
    rw [BitVec.toNat_setWidth, h]
    omega

theorem Val.ofJson_tag {B : BigNums} {v : Val} (h : v.Apart B) :
    Tag.ofJson (v.toJson B) = v.asTag := by
  match v, h with
  | .unit, _ => rfl
  | .num (.uint n), _ => rfl
  | .num (.int n), _ =>
    simp only [Val.toJson, BigNums.write, Val.asTag]
    split
    · rw [if_neg (by omega)]; rfl
    · rename_i hn
      have := n.isLt
      have : n.toInt = n.toNat := by
        rw [BitVec.toInt_eq_toNat_cond] at hn ⊢
        split <;> simp_all <;> omega
      simp only [Tag.ofJson, this]
      congr 1
      apply propext
      omega
  | .num (.bigUint n), h => exact h.2.2.2
  | .num (.bigInt n), h => exact h.2.2.2.2.2
  | .str s, _ => rfl
  | .bytes b, _ => rfl
  | .struct fs, _ => rfl
  | .enum t, _ => exact Tag.ofJson_toJson t
  | .union t v, _ => rfl
  | .list l, _ => rfl
  | .set l, _ => rfl
  | .tuple l, _ => rfl
  | .map l, _ => rfl

theorem readVal_num {B : BigNums} {n : Num} (h : B.Clear n) :
    Json.readVal B (B.write n) = some (Val.num n).back := by
  cases n with
  | uint n => rfl
  | int n =>
    simp only [BigNums.write, Val.back]
    split
    · rename_i hn
      simp [Json.readVal, BigNums.read, h hn]
    · rfl
  | bigUint n =>
    obtain ⟨h1, h2, h3, -⟩ := h
    simp only [BigNums.write, Val.back]
    generalize B.writeU n = j at *
    cases j <;> simp_all [Json.readVal, BigNums.read]
  | bigInt n =>
    obtain ⟨h1, h2, h3, h4, h5, -⟩ := h
    simp only [BigNums.write, Val.back]
    generalize B.writeI n = j at *
    cases j <;> simp_all [Json.readVal, BigNums.read]

/-- A sequence whose items are read. -/
theorem readVal_seq {B : BigNums} {js : List Json} {vs : List Val} {t : Option Tag}
    (hs : B.Silent (.arr js)) (hr : Json.readVals B js = some vs)
    (ht : js.head?.bind Tag.ofJson = t ∨ vs.length ≠ 2) :
    Json.readVal B (.arr js) = some (Val.backSeq t vs) := by
  have hlen : ∀ {js : List Json} {vs : List Val}, Json.readVals B js = some vs →
      vs.length = js.length := by
    intro js
    induction js with
    | nil => intro vs h; simp [Json.readVals] at h; simp [← h]
    | cons j js ih =>
      intro vs h
      simp only [Json.readVals] at h
      split at h
      · rename_i v ws h1 h2
        cases h
        simp [ih h2]
      · cases h
  simp only [Json.readVal, BigNums.read_silent hs (by simp) (by simp)]
  have hl := hlen hr
  match js, hr, hl with
  | [], hr, hl =>
    cases hr
    cases t <;> simp [Json.readPair, Json.readVals, Val.backSeq]
  | [a], hr, hl =>
    match vs, hl with
    | [v], _ =>
      have : Json.readPair B [a] = none := by
        simp only [Json.readPair, Json.readLast]
        cases Tag.ofJson a <;> rfl
      rw [this, hr]
      cases t <;> rfl
  | [a, b], hr, hl =>
    match vs, hl with
    | [v, w], _ =>
      have hta : Tag.ofJson a = t := by simpa using ht
      have hb : Json.readVal B b = some w := by
        simp only [Json.readVals] at hr
        cases h1 : Json.readVal B a <;> cases h2 : Json.readVal B b <;> simp_all
      simp only [Json.readPair, Json.readLast, hta, List.isEmpty_nil, if_true, hb]
      cases t with
      | none => simp [hr, Val.backSeq]
      | some t => rfl
  | a :: b :: c :: js, hr, hl =>
    match vs, hl with
    | v :: w :: x :: vs, _ =>
      have : Json.readPair B (a :: b :: c :: js) = none := by
        simp only [Json.readPair, Json.readLast]
        cases Tag.ofJson a <;> simp
      rw [this, hr]
      cases t <;> rfl

theorem toJsons_head {B : BigNums} {l : List Val} (h : Val.ApartAll B l) :
    (Val.toJsons B l).head?.bind Tag.ofJson = l.head?.bind Val.asTag := by
  cases l with
  | nil => rfl
  | cons v l =>
    simp only [Val.ApartAll] at h
    simp [Val.toJsons, Val.ofJson_tag h.1]

theorem imInsert_new {V : Type} {acc : List (Name × V)} {n : Name} {v : V}
    (h : n ∉ acc.map Prod.fst) : imInsert acc n v = acc ++ [(n, v)] := by
  induction acc with
  | nil => rfl
  | cons p acc ih =>
    obtain ⟨m, w⟩ := p
    simp only [List.map_cons, List.mem_cons, not_or] at h
    simp only [imInsert]
    rw [if_neg (fun e => h.1 e.symm), ih h.2]
    rfl

mutual
theorem readVal_toJson {B : BigNums} : (v : Val) → v.Apart B →
    Json.readVal B (v.toJson B) = some v.back
  | .unit, _ => rfl
  | .num n, h => readVal_num h
  | .str s, h => by
    simp only [Val.toJson, Json.readVal, BigNums.read_silent h (by simp) (by simp), Val.back]
  | .bytes b, h => by
    simp only [Val.toJson, Json.readVal, BigNums.read_silent h (by simp) (by simp), Val.back]
  | .struct fs, h => by
    simp only [Val.Apart] at h
    have := readFields_toJson fs [] h.2.2 (by simpa using h.1)
    have hs := h.2.1
    simp only [Val.toJson] at hs ⊢
    simp only [Json.readVal, BigNums.read_silent hs (by simp) (by simp), this]
    rfl
  | .enum (.name n), h => by
    have h : B.Silent (.str n.bytes) := h
    simp only [Val.toJson, Tag.toJson, Json.readVal, BigNums.read_silent h (by simp) (by simp),
      Val.back]
  | .enum (.ord t), _ => rfl
  | .union t v, h => by
    simp only [Val.Apart] at h
    have ih := readVal_toJson v h.2
    have hs := h.1
    simp only [Val.toJson] at hs ⊢
    simp only [Json.readVal, BigNums.read_silent hs (by simp) (by simp), Json.readPair,
      Json.readLast, Tag.ofJson_toJson, List.isEmpty_nil, if_true, ih, Val.back]
  | .list l, h => by
    simp only [Val.Apart] at h
    simp only [Val.toJson] at h ⊢
    exact readVal_seq h.1 (readVals_toJson l h.2) (.inl (toJsons_head h.2))
  | .set l, h => by
    simp only [Val.Apart] at h
    simp only [Val.toJson] at h ⊢
    exact readVal_seq h.1 (readVals_toJson l h.2) (.inl (toJsons_head h.2))
  | .tuple l, h => by
    simp only [Val.Apart] at h
    simp only [Val.toJson] at h ⊢
    exact readVal_seq h.1 (readVals_toJson l h.2) (.inl (toJsons_head h.2))
  | .map l, h => by
    simp only [Val.Apart] at h
    simp only [Val.toJson] at h ⊢
    refine readVal_seq h.1 (readPairs_toJson l h.2) (.inl ?_)
    match l with
    | [] => rfl
    | (k, v) :: l => rfl
theorem readVals_toJson {B : BigNums} : (l : List Val) → Val.ApartAll B l →
    Json.readVals B (Val.toJsons B l) = some (Val.backs l)
  | [], _ => rfl
  | v :: l, h => by
    simp only [Val.ApartAll] at h
    simp only [Val.toJsons, Json.readVals, readVal_toJson v h.1, readVals_toJson l h.2, Val.backs]
theorem readFields_toJson {B : BigNums} : (fs acc : List (Name × Val)) → Val.ApartFields B fs →
    ((acc ++ fs).map Prod.fst).Nodup →
    Json.readFields B (Val.toJsonFields B fs) acc = some (acc ++ Val.backFields fs)
  | [], acc, _, _ => by simp [Val.toJsonFields, Json.readFields, Val.backFields]
  | (n, v) :: fs, acc, h, hd => by
    simp only [Val.ApartFields, Val.ApartField] at h
    have hn : n ∉ acc.map Prod.fst := by
      simp only [List.map_append, List.map_cons] at hd
      rw [List.nodup_append] at hd
      intro hm
      exact hd.2.2 n hm n (by simp) rfl
    simp only [Val.toJsonFields, Val.toJsonField, Json.readFields, Json.readField,
      Name.ofBytes?_bytes, readVal_toJson v h.1, Val.backFields, Val.backField]
    rw [imInsert_new hn, readFields_toJson fs (acc ++ [(n, v.back)]) h.2 (by simpa using hd)]
    simp
theorem readPairs_toJson {B : BigNums} : (l : List (Val × Val)) → Val.ApartPairs B l →
    Json.readVals B (Val.toJsonPairs B l) = some (Val.backPairs l)
  | [], _ => rfl
  | (k, v) :: l, h => by
    simp only [Val.ApartPairs, Val.ApartPair] at h
    have hp : Json.readVal B (.arr [k.toJson B, v.toJson B]) =
        some (Val.backSeq k.asTag [k.back, v.back]) := by
      refine readVal_seq h.1.1 ?_ (.inl (by simp [Val.ofJson_tag h.1.2.1]))
      simp only [Json.readVals, readVal_toJson k h.1.2.1, readVal_toJson v h.1.2.2]
    simp only [Val.toJsonPairs, Val.toJsonPair, Json.readVals, hp, readPairs_toJson l h.2,
      Val.backPairs, Val.backPair]
end

theorem Val.backs_eq_map (l : List Val) : Val.backs l = l.map Val.back := by
  induction l with
  | nil => rfl
  | cons v l ih => simp [Val.backs, ih]

theorem Val.backFields_eq_map (l : List (Name × Val)) :
    Val.backFields l = l.map fun f => (f.1, f.2.back) := by
  induction l with
  | nil => rfl
  | cons v l ih => obtain ⟨n, v⟩ := v; simp [Val.backFields, Val.backField, ih]

theorem Val.backSeq_list {t : Option Tag} {l : List Val} (h : l.length = 2 → t = Option.none) :
    Val.backSeq t l = .list l := by
  match t, l with
  | Option.none, _ => rfl
  | Option.some t, [] => rfl
  | Option.some t, [a] => rfl
  | Option.some t, [a, b] => simp at h
  | Option.some t, a :: b :: c :: l => rfl

theorem Val.backSeq_ne {t : Option Tag} {l : List Val} {v : Val} (h : Val.backSeq t l = v) :
    (∃ t', t = Option.some t' ∧ ∃ a b, l = [a, b] ∧ v = .union t' b) ∨ v = .list l := by
  match t, l with
  | Option.none, _ => exact .inr h.symm
  | Option.some t, [] => exact .inr h.symm
  | Option.some t, [a] => exact .inr h.symm
  | Option.some t, [a, b] => exact .inl ⟨t, rfl, a, b, rfl, h.symm⟩
  | Option.some t, a :: b :: c :: l => exact .inr h.symm

theorem Val.Told.back {v : Val} (h : v.Told) : v.back = v := by
  induction h with
  | unit => rfl
  | uint n => rfl
  | int h => simp [Val.back, h]
  | bigUint n => rfl
  | bigInt n => rfl
  | str s => rfl
  | struct hf ih =>
    simp only [Val.back, Val.backFields_eq_map]
    congr 1
    rename_i fs
    have : ∀ f ∈ fs, (f.1, f.2.back) = f := fun f hf => by rw [ih f hf]
    exact (List.map_congr_left this).trans (List.map_id _)
  | union h ih => simp [Val.back, ih]
  | @list l hl hp ih =>
    simp only [Val.back, Val.backs_eq_map]
    have : l.map Val.back = l := (List.map_congr_left fun v hv => ih v hv).trans (List.map_id _)
    rw [this]
    refine Val.backSeq_list fun h2 => ?_
    match l, h2 with
    | [a, b], _ => exact hp a b rfl

mutual
theorem Val.told_of_back : (v : Val) → v.back = v → v.Told
  | .unit, _ => .unit
  | .num (.uint n), _ => .uint n
  | .num (.int n), h => by
    simp only [Val.back] at h
    split at h
    · rename_i hn; exact .int hn
    · simp at h
  | .num (.bigUint n), _ => .bigUint n
  | .num (.bigInt n), _ => .bigInt n
  | .str s, _ => .str s
  | .bytes b, h => by simp [Val.back] at h
  | .struct fs, h => by
    simp only [Val.back, Val.struct.injEq] at h
    exact .struct (Val.told_of_backFields fs h)
  | .enum (.name n), h => by simp [Val.back] at h
  | .enum (.ord n), h => by simp [Val.back] at h
  | .union t v, h => by
    simp only [Val.back, Val.union.injEq, true_and] at h
    exact .union (Val.told_of_back v h)
  | .list l, h => by
    simp only [Val.back] at h
    rcases Val.backSeq_ne h with ⟨t, -, a, b, -, h'⟩ | h'
    · cases h'
    · simp only [Val.list.injEq] at h'
      refine .list (Val.told_of_backs l h'.symm) ?_
      intro a b hl
      subst hl
      rw [← h'] at h
      cases ht : a.asTag with
      | none => rfl
      | some t => simp [ht, Val.backSeq] at h
  | .set l, h => by
    simp only [Val.back] at h
    rcases Val.backSeq_ne h with ⟨t, -, a, b, -, h'⟩ | h' <;> cases h'
  | .tuple l, h => by
    simp only [Val.back] at h
    rcases Val.backSeq_ne h with ⟨t, -, a, b, -, h'⟩ | h' <;> cases h'
  | .map l, h => by
    simp only [Val.back] at h
    rcases Val.backSeq_ne h with ⟨t, -, a, b, -, h'⟩ | h' <;> cases h'
theorem Val.told_of_backs : (l : List Val) → Val.backs l = l → ∀ v ∈ l, v.Told
  | [], _ => by simp
  | v :: l, h => by
    simp only [Val.backs, List.cons.injEq] at h
    intro w hw
    rcases List.mem_cons.mp hw with he | hw
    · rw [he]; exact Val.told_of_back v h.1
    · exact Val.told_of_backs l h.2 w hw
theorem Val.told_of_backFields : (l : List (Name × Val)) → Val.backFields l = l →
    ∀ f ∈ l, f.2.Told
  | [], _ => by simp
  | (n, v) :: l, h => by
    simp only [Val.backFields, Val.backField, List.cons.injEq, Prod.mk.injEq, true_and] at h
    intro w hw
    rcases List.mem_cons.mp hw with he | hw
    · rw [he]; exact Val.told_of_back v h.1
    · exact Val.told_of_backFields l h.2 w hw
end

/-! ## What remains of a value has the same document -/

theorem Tag.toJson_asTag {B : BigNums} {v : Val} {t : Tag} (h : v.asTag = some t) :
    t.toJson = v.toJson B := by
  cases v with
  | str s =>
    simp only [Val.asTag, Option.map_eq_some_iff] at h
    obtain ⟨n, hn, rfl⟩ := h
    simp [Tag.toJson, Val.toJson, Name.ofBytes?_eq_some.mp hn]
  | bytes s =>
    simp only [Val.asTag, Option.map_eq_some_iff] at h
    obtain ⟨n, hn, rfl⟩ := h
    simp [Tag.toJson, Val.toJson, Name.ofBytes?_eq_some.mp hn]
  | enum t => cases h; rfl
  | num n =>
    cases n with
    | uint n =>
      simp only [Val.asTag] at h
      split at h
      · cases h
        simp only [Tag.toJson, Val.toJson, BigNums.write]
        congr 1
        apply BitVec.eq_of_toNat_eq
        simp only [BitVec.toNat_setWidth]
        omega
      · cases h
    | int n =>
      simp only [Val.asTag] at h
      split at h
      · rename_i hn
        cases h
        simp only [Tag.toJson, Val.toJson, BigNums.write]
        rw [if_neg (by omega)]
        congr 1
        apply BitVec.eq_of_toNat_eq
        have := n.isLt
        have : n.toNat < 256 := by
          rw [BitVec.toInt_eq_toNat_cond] at hn
          split at hn <;> omega
        simp only [BitVec.toNat_setWidth]
        omega
      · cases h
    | bigUint n => simp [Val.asTag] at h
    | bigInt n => simp [Val.asTag] at h
  | _ => simp [Val.asTag] at h

theorem toJson_backSeq {B : BigNums} {t : Option Tag} {l : List Val} {js : List Json}
    (h : Val.toJsons B l = js) (ht : ∀ t', t = some t' → js.head? = some t'.toJson) :
    (Val.backSeq t l).toJson B = .arr js := by
  match t, l with
  | none, _ => simp [Val.backSeq, Val.toJson, h]
  | some t, [] => simp [Val.backSeq, Val.toJson, h]
  | some t, [a] => simp [Val.backSeq, Val.toJson, h]
  | some t, [a, b] =>
    subst h
    have := ht t rfl
    simp only [Val.toJsons, List.head?_cons, Option.some.injEq] at this
    simp [Val.backSeq, Val.toJson, Val.toJsons, this]
  | some t, a :: b :: c :: l => simp [Val.backSeq, Val.toJson, h]

theorem toJsons_headTag {B : BigNums} (l : List Val) (t : Tag)
    (h : l.head?.bind Val.asTag = some t) : (Val.toJsons B l).head? = some t.toJson := by
  match l, h with
  | v :: l, h =>
    simp only [List.head?_cons, Option.bind_some] at h
    simp [Val.toJsons, Tag.toJson_asTag (B := B) h]

mutual
theorem toJson_back {B : BigNums} : (v : Val) → v.back.toJson B = v.toJson B
  | .unit => rfl
  | .num (.uint n) => rfl
  | .num (.int n) => by
    simp only [Val.back]
    split
    · rfl
    · rename_i h
      simp [Val.toJson, BigNums.write, h]
  | .num (.bigUint n) => rfl
  | .num (.bigInt n) => rfl
  | .str s => rfl
  | .bytes b => rfl
  | .struct fs => by simp only [Val.back, Val.toJson, toJsonFields_back fs]
  | .enum (.name n) => rfl
  | .enum (.ord n) => rfl
  | .union t v => by simp only [Val.back, Val.toJson, toJson_back v]
  | .list l => by
    simp only [Val.back, Val.toJson]
    exact toJson_backSeq (toJsons_back l) (toJsons_headTag l)
  | .set l => by
    simp only [Val.back, Val.toJson]
    exact toJson_backSeq (toJsons_back l) (toJsons_headTag l)
  | .tuple l => by
    simp only [Val.back, Val.toJson]
    exact toJson_backSeq (toJsons_back l) (toJsons_headTag l)
  | .map l => by
    simp only [Val.back, Val.toJson]
    exact toJson_backSeq (toJsonPairs_back l) (by simp)
theorem toJsons_back {B : BigNums} : (l : List Val) →
    Val.toJsons B (Val.backs l) = Val.toJsons B l
  | [] => rfl
  | v :: l => by simp only [Val.backs, Val.toJsons, toJson_back v, toJsons_back l]
theorem toJsonFields_back {B : BigNums} : (l : List (Name × Val)) →
    Val.toJsonFields B (Val.backFields l) = Val.toJsonFields B l
  | [] => rfl
  | (n, v) :: l => by
    simp only [Val.backFields, Val.backField, Val.toJsonFields, Val.toJsonField, toJson_back v,
      toJsonFields_back l]
theorem toJsonPairs_back {B : BigNums} : (l : List (Val × Val)) →
    Val.toJsons B (Val.backPairs l) = Val.toJsonPairs B l
  | [] => rfl
  | (k, v) :: l => by
    have : (Val.backSeq k.asTag [k.back, v.back]).toJson B = .arr [k.toJson B, v.toJson B] := by
      refine toJson_backSeq (by simp [Val.toJsons, toJson_back k, toJson_back v]) fun t ht => ?_
      simp [Tag.toJson_asTag (B := B) ht]
    simp only [Val.backPairs, Val.backPair, Val.toJsons, Val.toJsonPairs, Val.toJsonPair, this,
      toJsonPairs_back l]
end

end Verif
