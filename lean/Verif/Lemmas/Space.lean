import Verif.Spec.Space
import Verif.Lemmas.Codec
import Verif.Lemmas.RoundTrip

/-! # Space taken by values which are read -/

namespace Verif

theorem byteSize_pos (sz : Sizing) : 1 ≤ sz.byteSize := by
  unfold Sizing.byteSize
  repeat' split
  all_goals omega

/-! ## Bytes taken -/

section
variable {rec : SemId → Bytes → Out DErr (RdPair Val)} {E : Env}

/-- Reading takes bytes from the front, and none only for weightless types. -/
def TakesBytes (E : Env) (rec : SemId → Bytes → Out DErr (RdPair Val)) : Prop :=
  ∀ i bs v rest, rec i bs = .ok (v, rest) → ∃ c, bs.length = c + rest.length ∧ (c = 0 → Weightless E i)

theorem takes_readItems (hr : TakesBytes E rec) {i : SemId} : ∀ (n : Nat) {bs rest : Bytes} {l : List Val},
    readItems rec i n bs = .ok (l, rest) →
    ∃ c, bs.length = c + rest.length ∧ (¬Weightless E i → n ≤ c) ∧ (c = 0 → n = 0 ∨ Weightless E i)
  | 0, _, _, _, h => by cases h; exact ⟨0, by omega, fun _ => by omega, fun _ => .inl rfl⟩
  | n + 1, bs, rest, l, h => by
    obtain ⟨⟨v, b1⟩, h1, h2⟩ := Out.bind_eq_ok.mp h
    obtain ⟨⟨vs, b2⟩, h3, h4⟩ := Out.bind_eq_ok.mp h2
    cases h4
    obtain ⟨c, hc, hc0⟩ := hr _ _ _ _ h1
    obtain ⟨d, hd, hdn, hd0⟩ := takes_readItems hr n h3
    refine ⟨c + d, by omega, fun hw => ?_, fun h0 => .inr (hc0 (by omega))⟩
    have := hdn hw
    have : c ≠ 0 := fun h => hw (hc0 h)
    omega

theorem takes_readPairs (hr : TakesBytes E rec) {k i : SemId} : ∀ (n : Nat) {bs rest : Bytes} {l : List (Val × Val)},
    readPairs rec k i n bs = .ok (l, rest) →
    ∃ c, bs.length = c + rest.length ∧ (¬(Weightless E k ∧ Weightless E i) → n ≤ c)
  | 0, _, _, _, h => by cases h; exact ⟨0, by omega, fun _ => by omega⟩
  | n + 1, bs, rest, l, h => by
    obtain ⟨⟨u, b0⟩, h0, h⟩ := Out.bind_eq_ok.mp h
    obtain ⟨⟨v, b1⟩, h1, h2⟩ := Out.bind_eq_ok.mp h
    obtain ⟨⟨vs, b2⟩, h3, h4⟩ := Out.bind_eq_ok.mp h2
    cases h4
    obtain ⟨a, ha, ha0⟩ := hr _ _ _ _ h0
    obtain ⟨c, hc, hc0⟩ := hr _ _ _ _ h1
    obtain ⟨d, hd, hdn⟩ := takes_readPairs hr n h3
    refine ⟨a + c + d, by omega, fun hw => ?_⟩
    have := hdn hw
    have : ¬(a = 0 ∧ c = 0) := fun h => hw ⟨ha0 h.1, hc0 h.2⟩
    omega

theorem takes_readTuple (hr : TakesBytes E rec) : ∀ (ids : List SemId) {bs rest : Bytes} {l : List Val},
    readTuple rec ids bs = .ok (l, rest) → ∃ c, bs.length = c + rest.length ∧ (c = 0 → ∀ j ∈ ids, Weightless E j)
  | [], _, _, _, h => by cases h; exact ⟨0, by omega, fun _ => nofun⟩
  | i :: ids, bs, rest, l, h => by
    obtain ⟨⟨v, b1⟩, h1, h2⟩ := Out.bind_eq_ok.mp h
    obtain ⟨⟨vs, b2⟩, h3, h4⟩ := Out.bind_eq_ok.mp h2
    cases h4
    obtain ⟨c, hc, hc0⟩ := hr _ _ _ _ h1
    obtain ⟨d, hd, hd0⟩ := takes_readTuple hr ids h3
    refine ⟨c + d, by omega, fun h0 j hj => ?_⟩
    rcases List.mem_cons.mp hj with rfl | hj
    · exact hc0 (by omega)
    · exact hd0 (by omega) j hj

theorem takes_readFields (hr : TakesBytes E rec) : ∀ (fs : List (Name × SemId)) {acc : List (Name × Val)} {bs rest : Bytes}
    {l : List (Name × Val)}, readFields rec fs acc bs = .ok (l, rest) →
    ∃ c, bs.length = c + rest.length ∧ (c = 0 → ∀ f ∈ fs, Weightless E f.2)
  | [], _, _, _, _, h => by cases h; exact ⟨0, by omega, fun _ => nofun⟩
  | (n, i) :: fs, acc, bs, rest, l, h => by
    obtain ⟨⟨v, b1⟩, h1, h2⟩ := Out.bind_eq_ok.mp h
    obtain ⟨c, hc, hc0⟩ := hr _ _ _ _ h1
    obtain ⟨d, hd, hd0⟩ := takes_readFields hr fs h2
    refine ⟨c + d, by omega, fun h0 j hj => ?_⟩
    rcases List.mem_cons.mp hj with rfl | hj
    · exact hc0 (by omega)
    · exact hd0 (by omega) j hj

theorem readLe_length {w n : Nat} {bs rest : Bytes} (h : readLe w bs = .ok (n, rest)) : bs.length = w + rest.length := by
  obtain ⟨rfl, -⟩ := readLe_ok h
  simp [le_length]

/-- The space of strings which are read. -/
theorem readAscii_space {w : Nat} {bs rest : Bytes} {v : Val} (h : readAscii w bs = .ok (v, rest)) :
    ∃ s : Bytes, bs.length = w + s.length + rest.length ∧ ∀ n b, v.space n b = n + b * s.length := by
  obtain ⟨⟨len, b1⟩, h1, h2⟩ := Out.bind_eq_ok.mp h
  obtain ⟨⟨s, b2⟩, h3, h4⟩ := Out.bind_eq_ok.mp h2
  have h5 := readLe_length h1
  obtain ⟨rfl, -⟩ := readRaw_ok h3
  simp only [List.length_append] at h5
  revert h4
  dsimp only
  split
  · intro h4
    cases h4
    exact ⟨s, by omega, fun n b => by simp [Val.space]⟩
  · nofun

theorem readString_space {w : Nat} {bs rest : Bytes} {v : Val} (h : readString w bs = .ok (v, rest)) :
    ∃ s : Bytes, bs.length = w + s.length + rest.length ∧ ∀ n b, v.space n b = n + b * s.length := by
  obtain ⟨⟨len, b1⟩, h1, h2⟩ := Out.bind_eq_ok.mp h
  obtain ⟨⟨s, b2⟩, h3, h4⟩ := Out.bind_eq_ok.mp h2
  have h5 := readLe_length h1
  obtain ⟨rfl, -⟩ := readRaw_ok h3
  simp only [List.length_append] at h5
  revert h4
  dsimp only
  split
  · intro h4
    cases h4
    exact ⟨s, by omega, fun n b => by simp [Val.space]⟩
  · nofun

theorem readBlob_space {w : Nat} {bs rest : Bytes} {v : Val} (h : readBlob w bs = .ok (v, rest)) :
    ∃ s : Bytes, bs.length = w + s.length + rest.length ∧ ∀ n b, v.space n b = n + b * s.length := by
  obtain ⟨⟨len, b1⟩, h1, h2⟩ := Out.bind_eq_ok.mp h
  obtain ⟨⟨s, b2⟩, h3, h4⟩ := Out.bind_eq_ok.mp h2
  have h5 := readLe_length h1
  obtain ⟨rfl, -⟩ := readRaw_ok h3
  simp only [List.length_append] at h5
  cases h4
  exact ⟨s, by omega, fun n b => by simp [Val.space]⟩

theorem readPrim_space {p : Byte} {bs rest : Bytes} {v : Val} (h : readPrim p bs = .ok (v, rest)) :
    ∃ c, bs.length = c + rest.length ∧ (c = 0 → p = Ty.UNIT_CODE) ∧ ∀ n b, v.space n b = n := by
  have hu : ∀ m, 1 ≤ m → readUint m bs = .ok (v, rest) →
      ∃ c, bs.length = c + rest.length ∧ (c = 0 → p = Ty.UNIT_CODE) ∧ ∀ n b, v.space n b = n := fun m hm h => by
    obtain ⟨⟨x, b1⟩, h1, h2⟩ := Out.bind_eq_ok.mp h
    cases h2
    exact ⟨m, readLe_length h1, fun h => by omega, fun n b => by simp [Val.space]⟩
  have hi : ∀ m, 1 ≤ m → readInt m bs = .ok (v, rest) →
      ∃ c, bs.length = c + rest.length ∧ (c = 0 → p = Ty.UNIT_CODE) ∧ ∀ n b, v.space n b = n := fun m hm h => by
    obtain ⟨⟨x, b1⟩, h1, h2⟩ := Out.bind_eq_ok.mp h
    cases h2
    exact ⟨m, readLe_length h1, fun h => by omega, fun n b => by simp [Val.space]⟩
  unfold readPrim at h
  split at h
  · cases h
    exact ⟨0, by omega, fun _ => ‹_›, fun n b => by simp [Val.space]⟩
  split at h
  · exact hu _ (by omega) h
  split at h
  · exact hu _ (by omega) h
  split at h
  · exact hi _ (by omega) h
  split at h
  · exact hi _ (by omega) h
  split at h
  · exact hi _ (by omega) h
  split at h
  · exact hi _ (by omega) h
  · cases h

theorem takes_readTy (hr : TakesBytes E rec) {i : SemId} {t : Ty SemId} (ht : E.find i = some t) {bs rest : Bytes} {v : Val}
    (h : readTy rec E i t bs = .ok (v, rest)) : ∃ c, bs.length = c + rest.length ∧ (c = 0 → Weightless E i) := by
  cases t with
  | primitive p =>
    obtain ⟨c, h1, h2, -⟩ := readPrim_space h
    exact ⟨c, h1, fun h => .unit (by rw [ht, h2 h])⟩
  | unicodeChar => cases h
  | enum vs =>
    obtain ⟨⟨x, b1⟩, h1, h2⟩ := Out.bind_eq_ok.mp h
    have := readLe_length h1
    revert h2
    dsimp only
    split
    · nofun
    · intro h2
      cases h2
      exact ⟨1, this, fun h => by omega⟩
  | union vs =>
    obtain ⟨⟨x, b1⟩, h1, h2⟩ := Out.bind_eq_ok.mp h
    have := readLe_length h1
    revert h2
    dsimp only
    split
    · nofun
    · intro h2
      obtain ⟨⟨w, b2⟩, h3, h4⟩ := Out.bind_eq_ok.mp h2
      cases h4
      obtain ⟨c, hc, -⟩ := hr _ _ _ _ h3
      exact ⟨1 + c, by simp only at hc this ⊢; omega, fun h => by omega⟩
  | struct fs =>
    obtain ⟨⟨l, b1⟩, h1, h2⟩ := Out.bind_eq_ok.mp h
    cases h2
    obtain ⟨c, hc, h0⟩ := takes_readFields hr fs h1
    exact ⟨c, hc, fun h => .struct ht (h0 h)⟩
  | tuple ids =>
    obtain ⟨r, h1, h2⟩ := Out.bind_eq_ok.mp h
    cases r with
    | true =>
      obtain ⟨o, h3, h4⟩ := Out.bind_eq_ok.mp h2
      cases o with
      | none => cases h4
      | some p =>
        obtain ⟨s, hs, -⟩ := readAscii_space h4
        have := byteSize_pos p.2
        exact ⟨p.2.byteSize + s.length, hs, fun h => by omega⟩
    | false =>
      obtain ⟨⟨l, b1⟩, h3, h4⟩ := Out.bind_eq_ok.mp h2
      cases h4
      obtain ⟨c, hc, h0⟩ := takes_readTuple hr ids h3
      exact ⟨c, hc, fun h => .tuple ht (h0 h)⟩
  | array j len =>
    simp only [readTy] at h
    split at h
    · obtain ⟨⟨l, b1⟩, h1, h2⟩ := Out.bind_eq_ok.mp h
      cases h2
      obtain ⟨rfl, hl⟩ := readRaw_ok h1
      refine ⟨l.length, by simp, fun h => .empty (j := j) (by rw [ht]; congr 2; apply BitVec.eq_of_toNat_eq; simp; omega)⟩
    · obtain ⟨⟨l, b1⟩, h1, h2⟩ := Out.bind_eq_ok.mp h
      cases h2
      obtain ⟨c, hc, -, h0⟩ := takes_readItems hr _ h1
      refine ⟨c, hc, fun h => ?_⟩
      rcases h0 h with h | h
      · exact .empty (j := j) (by rw [ht]; congr 2; apply BitVec.eq_of_toNat_eq; simp; omega)
      · exact .array ht h
  | list j sz =>
    have hp := byteSize_pos sz
    simp only [readTy, readList] at h
    split at h
    · cases h
    split at h
    · obtain ⟨s, hs, -⟩ := readAscii_space h
      exact ⟨sz.byteSize + s.length, hs, fun h => by omega⟩
    split at h
    · obtain ⟨s, hs, -⟩ := readBlob_space h
      exact ⟨sz.byteSize + s.length, hs, fun h => by omega⟩
    split at h
    · obtain ⟨s, hs, -⟩ := readString_space h
      exact ⟨sz.byteSize + s.length, hs, fun h => by omega⟩
    · obtain ⟨⟨l, b1⟩, h1, h2⟩ := Out.bind_eq_ok.mp h
      cases h2
      obtain ⟨⟨n, b2⟩, h3, h4⟩ := Out.bind_eq_ok.mp h1
      obtain ⟨u, -, h6⟩ := Out.bind_eq_ok.mp h4
      obtain ⟨c, hc, -⟩ := takes_readItems hr _ h6
      exact ⟨sz.byteSize + c, by have := readLe_length h3; dsimp only; omega, fun h => by omega⟩
  | set j sz =>
    have hp := byteSize_pos sz
    obtain ⟨⟨l, b1⟩, h1, h2⟩ := Out.bind_eq_ok.mp h
    cases h2
    obtain ⟨⟨n, b2⟩, h3, h4⟩ := Out.bind_eq_ok.mp h1
    obtain ⟨u, -, h6⟩ := Out.bind_eq_ok.mp h4
    obtain ⟨c, hc, -⟩ := takes_readItems hr _ h6
    exact ⟨sz.byteSize + c, by have := readLe_length h3; omega, fun h => by omega⟩
  | map k j sz =>
    have hp := byteSize_pos sz
    obtain ⟨⟨l, b1⟩, h1, h2⟩ := Out.bind_eq_ok.mp h
    cases h2
    obtain ⟨⟨n, b2⟩, h3, h4⟩ := Out.bind_eq_ok.mp h1
    obtain ⟨u, -, h6⟩ := Out.bind_eq_ok.mp h4
    obtain ⟨c, hc, -⟩ := takes_readPairs hr _ h6
    exact ⟨sz.byteSize + c, by have := readLe_length h3; omega, fun h => by omega⟩

end

theorem read_takes (E : Env) : ∀ fuel, TakesBytes E (read E fuel)
  | 0, _, _, _, _, h => by cases h
  | fuel + 1, i, bs, v, rest, h => by
    simp only [read] at h
    split at h
    · cases h
    · exact takes_readTy (read_takes E fuel) ‹_› h

/-! ## Space -/

/-- How much space the types are allowed: `D` for each value apart from items of collections, and `N` for each item. -/
def Ty.Budget (E : Env) (n : Nat) (D : SemId → Nat) (N : Nat) (id : SemId) : Ty SemId → Prop
  | .tuple ids => n + (ids.map D).sum ≤ D id
  | .struct fs => n + (fs.map fun f => D f.2).sum ≤ D id
  | .array j len => n ≤ D id ∧ (j.isByte E.H = true ∨ n + len.toNat * D j ≤ D id)
  | .union vs => ∀ v ∈ vs, n + D v.2 ≤ D id
  | .list j _ => n ≤ D id ∧ (D j = 0 ∨ ¬Weightless E j ∧ D j ≤ N)
  | .set j _ => n ≤ D id ∧ (D j = 0 ∨ ¬Weightless E j ∧ D j ≤ N)
  | .map k j _ => n ≤ D id ∧ (D k + D j = 0 ∨ ¬(Weightless E k ∧ Weightless E j) ∧ D k + D j ≤ N)
  | _ => n ≤ D id

theorem mul_pred_add (N c d : Nat) : N * (c - 1) + N * (d - 1) ≤ N * (c + d - 1) := by
  rw [← Nat.mul_add]
  exact Nat.mul_le_mul_left N (by omega)

theorem mul_pred_succ (N : Nat) {c : Nat} (h : c ≠ 0) : N + N * (c - 1) = N * c := by
  obtain ⟨d, rfl⟩ : ∃ d, c = d + 1 := ⟨c - 1, by omega⟩
  rw [Nat.mul_add]
  simp; omega

section
variable {rec : SemId → Bytes → Out DErr (RdPair Val)} {E : Env} {n b N : Nat} {D : SemId → Nat}

/-- The space of the value is at most what is allowed for the type, and for each byte but the first. -/
def InSpace (E : Env) (n b N : Nat) (D : SemId → Nat) (rec : SemId → Bytes → Out DErr (RdPair Val)) : Prop :=
  ∀ i bs v rest, rec i bs = .ok (v, rest) →
    ∃ c, bs.length = c + rest.length ∧ (c = 0 → Weightless E i) ∧ v.space n b ≤ D i + N * (c - 1) + b * c

theorem space_readItems (hr : InSpace E n b N D rec) {i : SemId} : ∀ (m : Nat) {bs rest : Bytes} {l : List Val},
    readItems rec i m bs = .ok (l, rest) → ∃ c, bs.length = c + rest.length ∧
      Val.spaceList n b l ≤ m * D i + N * (c - 1) + b * c ∧
      (D i = 0 ∨ ¬Weightless E i ∧ D i ≤ N → Val.spaceList n b l ≤ N * c + b * c)
  | 0, _, _, _, h => by cases h; exact ⟨0, by omega, by simp [Val.spaceList], by simp [Val.spaceList]⟩
  | m + 1, bs, rest, l, h => by
    obtain ⟨⟨v, b1⟩, h1, h2⟩ := Out.bind_eq_ok.mp h
    obtain ⟨⟨vs, b2⟩, h3, h4⟩ := Out.bind_eq_ok.mp h2
    cases h4
    obtain ⟨c, hc, h0, hs⟩ := hr _ _ _ _ h1
    obtain ⟨d, hd, ht, hu⟩ := space_readItems hr m h3
    refine ⟨c + d, by omega, ?_, fun hD => ?_⟩
    · have := mul_pred_add N c d
      simp only [Val.spaceList, Nat.mul_add b, Nat.add_mul, Nat.one_mul]
      omega
    · have h5 := hu hD
      have h6 : D i + N * (c - 1) ≤ N * c := by
        rcases hD with h | ⟨hw, hD⟩
        · have := Nat.mul_le_mul_left N (show c - 1 ≤ c by omega)
          omega
        · have := mul_pred_succ N (c := c) fun h => hw (h0 h)
          omega
      simp only [Val.spaceList, Nat.mul_add]
      omega

theorem space_readPairs (hr : InSpace E n b N D rec) {k i : SemId}
    (hD : D k + D i = 0 ∨ ¬(Weightless E k ∧ Weightless E i) ∧ D k + D i ≤ N) :
    ∀ (m : Nat) {bs rest : Bytes} {l : List (Val × Val)},
    readPairs rec k i m bs = .ok (l, rest) → ∃ c, bs.length = c + rest.length ∧ Val.spacePairs n b l ≤ N * c + b * c
  | 0, _, _, _, h => by cases h; exact ⟨0, by omega, by simp [Val.spacePairs]⟩
  | m + 1, bs, rest, l, h => by
    obtain ⟨⟨u, b0⟩, h0, h⟩ := Out.bind_eq_ok.mp h
    obtain ⟨⟨v, b1⟩, h1, h2⟩ := Out.bind_eq_ok.mp h
    obtain ⟨⟨vs, b2⟩, h3, h4⟩ := Out.bind_eq_ok.mp h2
    cases h4
    obtain ⟨a, ha, ha0, hs'⟩ := hr _ _ _ _ h0
    obtain ⟨c, hc, hc0, hs⟩ := hr _ _ _ _ h1
    obtain ⟨d, hd, ht⟩ := space_readPairs hr hD m h3
    refine ⟨a + c + d, by omega, ?_⟩
    have h5 := mul_pred_add N a c
    have h6 : D k + D i + N * (a + c - 1) ≤ N * (a + c) := by
      rcases hD with h | ⟨hw, hD⟩
      · have := Nat.mul_le_mul_left N (show a + c - 1 ≤ a + c by omega)
        omega
      · have := mul_pred_succ N (c := a + c) fun h => hw ⟨ha0 (by omega), hc0 (by omega)⟩
        omega
    simp only [Val.spacePairs, Val.spacePair, Nat.mul_add] at h6 ⊢
    omega

theorem space_readTuple (hr : InSpace E n b N D rec) : ∀ (ids : List SemId) {bs rest : Bytes} {l : List Val},
    readTuple rec ids bs = .ok (l, rest) →
    ∃ c, bs.length = c + rest.length ∧ Val.spaceList n b l ≤ (ids.map D).sum + N * (c - 1) + b * c
  | [], _, _, _, h => by cases h; exact ⟨0, by omega, by simp [Val.spaceList]⟩
  | i :: ids, bs, rest, l, h => by
    obtain ⟨⟨v, b1⟩, h1, h2⟩ := Out.bind_eq_ok.mp h
    obtain ⟨⟨vs, b2⟩, h3, h4⟩ := Out.bind_eq_ok.mp h2
    cases h4
    obtain ⟨c, hc, -, hs⟩ := hr _ _ _ _ h1
    obtain ⟨d, hd, ht⟩ := space_readTuple hr ids h3
    refine ⟨c + d, by omega, ?_⟩
    have := mul_pred_add N c d
    simp only [Val.spaceList, List.map_cons, List.sum_cons, Nat.mul_add b]
    omega

theorem space_imInsert (f : Name) (v : Val) : ∀ acc : List (Name × Val),
    Val.spaceFields n b (imInsert acc f v) ≤ Val.spaceFields n b acc + v.space n b
  | [] => by simp [imInsert, Val.spaceFields, Val.spaceField]
  | (m, w) :: acc => by
    unfold imInsert
    split
    · simp only [Val.spaceFields, Val.spaceField]; omega
    · have := space_imInsert f v acc
      simp only [Val.spaceFields, Val.spaceField]; omega

theorem space_readFields (hr : InSpace E n b N D rec) : ∀ (fs : List (Name × SemId)) {acc : List (Name × Val)} {bs rest : Bytes}
    {l : List (Name × Val)}, readFields rec fs acc bs = .ok (l, rest) →
    ∃ c, bs.length = c + rest.length ∧
      Val.spaceFields n b l ≤ Val.spaceFields n b acc + ((fs.map fun f => D f.2).sum + N * (c - 1) + b * c)
  | [], _, _, _, _, h => by cases h; exact ⟨0, by omega, by simp⟩
  | (m, i) :: fs, acc, bs, rest, l, h => by
    obtain ⟨⟨v, b1⟩, h1, h2⟩ := Out.bind_eq_ok.mp h
    obtain ⟨c, hc, -, hs⟩ := hr _ _ _ _ h1
    obtain ⟨d, hd, ht⟩ := space_readFields hr fs h2
    refine ⟨c + d, by omega, ?_⟩
    have := space_imInsert (n := n) (b := b) m v acc
    have := mul_pred_add N c d
    simp only [List.map_cons, List.sum_cons, Nat.mul_add b] at ht ⊢
    omega

theorem space_readTy (hr : InSpace E n b N D rec) {i : SemId} {t : Ty SemId} (hwf : t.WF) (hB : t.Budget E n D N i)
    {bs rest : Bytes} {v : Val} (h : readTy rec E i t bs = .ok (v, rest)) :
    ∃ c, bs.length = c + rest.length ∧ v.space n b ≤ D i + N * (c - 1) + b * c := by
  have hstr : ∀ w (s : Bytes), n ≤ D i → (∀ n b, v.space n b = n + b * s.length) → bs.length = w + s.length + rest.length →
      ∃ c, bs.length = c + rest.length ∧ v.space n b ≤ D i + N * (c - 1) + b * c := fun w s h0 h1 h2 => by
    refine ⟨w + s.length, h2, ?_⟩
    rw [h1, Nat.mul_add b]
    omega
  have hseq : ∀ (c w T : Nat), 1 ≤ w → n ≤ D i → T ≤ N * c + b * c → bs.length = w + (c + rest.length) → v.space n b = n + T →
      ∃ c, bs.length = c + rest.length ∧ v.space n b ≤ D i + N * (c - 1) + b * c := fun c w T hw h1 h2 h3 h4 => by
    refine ⟨w + c, by omega, ?_⟩
    have := Nat.mul_le_mul_left N (show c ≤ w + c - 1 by omega)
    rw [h4, Nat.mul_add b]
    omega
  cases t with
  | primitive p =>
    obtain ⟨c, h1, -, h2⟩ := readPrim_space h
    exact ⟨c, h1, by rw [h2]; have : n ≤ D i := hB; omega⟩
  | unicodeChar => cases h
  | enum vs =>
    obtain ⟨⟨x, b1⟩, h1, h2⟩ := Out.bind_eq_ok.mp h
    have := readLe_length h1
    revert h2
    dsimp only
    split
    · nofun
    · intro h2
      cases h2
      exact ⟨1, this, by simp only [Val.space]; have : n ≤ D i := hB; omega⟩
  | union vs =>
    obtain ⟨⟨x, b1⟩, h1, h2⟩ := Out.bind_eq_ok.mp h
    have := readLe_length h1
    revert h2
    dsimp only
    split
    · nofun
    · rename_i p hp
      intro h2
      obtain ⟨⟨w, b2⟩, h3, h4⟩ := Out.bind_eq_ok.mp h2
      cases h4
      obtain ⟨c, hc, -, hs⟩ := hr _ _ _ _ h3
      refine ⟨1 + c, by simp only at hc this ⊢; omega, ?_⟩
      have h5 := hB _ ((unionByTag_iff hwf _ _).mp hp).1
      have := Nat.mul_le_mul_left N (show c - 1 ≤ 1 + c - 1 by omega)
      simp only [Val.space, Nat.mul_add b, Nat.mul_one]
      omega
  | struct fs =>
    obtain ⟨⟨l, b1⟩, h1, h2⟩ := Out.bind_eq_ok.mp h
    cases h2
    obtain ⟨c, hc, h0⟩ := space_readFields hr fs h1
    have h5 : n + (fs.map fun f => D f.2).sum ≤ D i := hB
    refine ⟨c, hc, ?_⟩
    simp only [Val.space, Val.spaceFields] at h0 ⊢
    omega
  | tuple ids =>
    have h5 : n + (ids.map D).sum ≤ D i := hB
    obtain ⟨r, h1, h2⟩ := Out.bind_eq_ok.mp h
    cases r with
    | true =>
      obtain ⟨o, h3, h4⟩ := Out.bind_eq_ok.mp h2
      cases o with
      | none => cases h4
      | some p =>
        obtain ⟨s, hs, h6⟩ := readAscii_space h4
        exact hstr _ s (by omega) h6 hs
    | false =>
      obtain ⟨⟨l, b1⟩, h3, h4⟩ := Out.bind_eq_ok.mp h2
      cases h4
      obtain ⟨c, hc, h0⟩ := space_readTuple hr ids h3
      refine ⟨c, hc, ?_⟩
      simp only [Val.space]
      omega
  | array j len =>
    simp only [readTy] at h
    split at h
    · obtain ⟨⟨l, b1⟩, h1, h2⟩ := Out.bind_eq_ok.mp h
      cases h2
      obtain ⟨rfl, hl⟩ := readRaw_ok h1
      exact hstr 0 l hB.1 (fun n b => by simp [Val.space]) (by simp)
    · rename_i hb
      obtain ⟨⟨l, b1⟩, h1, h2⟩ := Out.bind_eq_ok.mp h
      cases h2
      obtain ⟨c, hc, h0, -⟩ := space_readItems hr _ h1
      refine ⟨c, hc, ?_⟩
      have := hB.2.resolve_left hb
      simp only [Val.space]
      omega
  | list j sz =>
    simp only [readTy, readList] at h
    split at h
    · cases h
    split at h
    · obtain ⟨s, hs, h5⟩ := readAscii_space h
      exact hstr _ s hB.1 h5 hs
    split at h
    · obtain ⟨s, hs, h5⟩ := readBlob_space h
      exact hstr _ s hB.1 h5 hs
    split at h
    · obtain ⟨s, hs, h5⟩ := readString_space h
      exact hstr _ s hB.1 h5 hs
    · obtain ⟨⟨l, b1⟩, h1, h2⟩ := Out.bind_eq_ok.mp h
      cases h2
      obtain ⟨⟨m, b2⟩, h3, h4⟩ := Out.bind_eq_ok.mp h1
      obtain ⟨u, -, h6⟩ := Out.bind_eq_ok.mp h4
      obtain ⟨c, hc, -, h0⟩ := space_readItems hr _ h6
      have h8 := readLe_length h3
      exact hseq c sz.byteSize (Val.spaceList n b l) (byteSize_pos sz) hB.1 (h0 hB.2) (by dsimp only; omega) (by simp [Val.space])
  | set j sz =>
    obtain ⟨⟨l, b1⟩, h1, h2⟩ := Out.bind_eq_ok.mp h
    cases h2
    obtain ⟨⟨m, b2⟩, h3, h4⟩ := Out.bind_eq_ok.mp h1
    obtain ⟨u, -, h6⟩ := Out.bind_eq_ok.mp h4
    obtain ⟨c, hc, -, h0⟩ := space_readItems hr _ h6
    have h8 := readLe_length h3
    exact hseq c sz.byteSize (Val.spaceList n b l) (byteSize_pos sz) hB.1 (h0 hB.2) (by omega) (by simp [Val.space])
  | map k j sz =>
    obtain ⟨⟨l, b1⟩, h1, h2⟩ := Out.bind_eq_ok.mp h
    cases h2
    obtain ⟨⟨m, b2⟩, h3, h4⟩ := Out.bind_eq_ok.mp h1
    obtain ⟨u, -, h6⟩ := Out.bind_eq_ok.mp h4
    obtain ⟨c, hc, h0⟩ := space_readPairs hr hB.2 _ h6
    have h8 := readLe_length h3
    exact hseq c sz.byteSize (Val.spacePairs n b l) (byteSize_pos sz) hB.1 h0 (by omega) (by simp [Val.space])

end

theorem read_space {E : Env} (hs : E.Sane) {n N : Nat} {D : SemId → Nat} (b : Nat)
    (hB : ∀ i t, E.find i = some t → t.Budget E n D N i) : ∀ fuel, InSpace E n b N D (read E fuel)
  | 0, _, _, _, _, h => by cases h
  | fuel + 1, i, bs, v, rest, h => by
    have h' := h
    simp only [read] at h
    split at h
    · cases h
    · rename_i t ht
      obtain ⟨c, hc, h1⟩ := space_readTy (read_space hs b hB fuel) (hs.wf _ _ ht) (hB i t ht) h
      obtain ⟨d, hd, h2⟩ := read_takes E (fuel + 1) _ _ _ _ h'
      obtain rfl : c = d := by omega
      exact ⟨c, hc, h2, h1⟩

theorem extent_budget {E : Env} {S : SemId → Nat} {M : Nat} (hx : E.Extent S M) (hw : E.Weighed) (n : Nat) (i : SemId)
    (t : Ty SemId) (ht : E.find i = some t) : t.Budget E n (fun j => n * S j) (n * M) i := by
  have h1 : n ≤ n * S i := Nat.le_mul_of_pos_right n (hx.one _ _ ht)
  have hsum : ∀ l : List Nat, (l.map (n * ·)).sum = n * l.sum := fun l => by
    induction l with
    | nil => rfl
    | cons a l ih => simp [ih, Nat.mul_add]
  have hm : ∀ {a : Nat}, a ≤ M → n * a ≤ n * M := fun h => Nat.mul_le_mul_left n h
  cases t with
  | primitive p => exact h1
  | unicodeChar => exact h1
  | enum vs => exact h1
  | union vs =>
    intro v hv
    have := Nat.mul_le_mul_left n (hx.union _ _ ht v hv)
    rwa [Nat.mul_add, Nat.mul_one] at this
  | struct fs =>
    have := Nat.mul_le_mul_left n (hx.struct _ _ ht)
    rw [Nat.mul_add, Nat.mul_one, ← hsum, List.map_map] at this
    exact this
  | tuple ids =>
    have := Nat.mul_le_mul_left n (hx.tuple _ _ ht)
    rw [Nat.mul_add, Nat.mul_one, ← hsum, List.map_map] at this
    exact this
  | array j len =>
    refine ⟨h1, (hx.array _ _ _ ht).imp_right fun h => ?_⟩
    have := Nat.mul_le_mul_left n h
    rw [Nat.mul_add, Nat.mul_one, Nat.mul_left_comm] at this
    exact this
  | list j sz => exact ⟨h1, .inr ⟨hw.list _ _ _ ht, hm (hx.list _ _ _ ht)⟩⟩
  | set j sz => exact ⟨h1, .inr ⟨hw.set _ _ _ ht, hm (hx.set _ _ _ ht)⟩⟩
  | map k j sz =>
    refine ⟨h1, .inr ⟨hw.map _ _ _ _ ht, ?_⟩⟩
    rw [← Nat.mul_add]
    exact hm (hx.map _ _ _ _ ht)

theorem no_budget (E : Env) (i : SemId) (t : Ty SemId) : t.Budget E 0 (fun _ => 0) 0 i := by
  have hsum : ∀ {α : Type} (l : List α), (l.map fun _ => 0).sum = 0 := fun l => by
    induction l with
    | nil => rfl
    | cons a l ih => simpa using ih
  cases t <;> simp [Ty.Budget, hsum]

/-! ## The converse: weightless types take nothing -/

theorem weightless_items {rec : SemId → Bytes → Out DErr (RdPair Val)} {i : SemId}
    (hr : ∀ bs v rest, rec i bs = .ok (v, rest) → rest = bs) : ∀ (n : Nat) {bs rest : Bytes} {l : List Val},
    readItems rec i n bs = .ok (l, rest) → rest = bs
  | 0, _, _, _, h => by cases h; rfl
  | n + 1, bs, rest, l, h => by
    obtain ⟨⟨v, b1⟩, h1, h2⟩ := Out.bind_eq_ok.mp h
    obtain ⟨⟨vs, b2⟩, h3, h4⟩ := Out.bind_eq_ok.mp h2
    cases h4
    rw [weightless_items hr n h3, hr _ _ _ h1]

theorem weightless_tuple {rec : SemId → Bytes → Out DErr (RdPair Val)} : ∀ (ids : List SemId) {bs rest : Bytes} {l : List Val},
    (∀ i ∈ ids, ∀ bs v rest, rec i bs = .ok (v, rest) → rest = bs) → readTuple rec ids bs = .ok (l, rest) → rest = bs
  | [], _, _, _, _, h => by cases h; rfl
  | i :: ids, bs, rest, l, hr, h => by
    obtain ⟨⟨v, b1⟩, h1, h2⟩ := Out.bind_eq_ok.mp h
    obtain ⟨⟨vs, b2⟩, h3, h4⟩ := Out.bind_eq_ok.mp h2
    cases h4
    rw [weightless_tuple ids (fun i hi => hr i (.tail _ hi)) h3, hr i (.head _) _ _ _ h1]

theorem weightless_fields {rec : SemId → Bytes → Out DErr (RdPair Val)} : ∀ (fs : List (Name × SemId))
    {acc : List (Name × Val)} {bs rest : Bytes} {l : List (Name × Val)},
    (∀ f ∈ fs, ∀ bs v rest, rec f.2 bs = .ok (v, rest) → rest = bs) → readFields rec fs acc bs = .ok (l, rest) → rest = bs
  | [], _, _, _, _, _, h => by cases h; rfl
  | (n, i) :: fs, acc, bs, rest, l, hr, h => by
    obtain ⟨⟨v, b1⟩, h1, h2⟩ := Out.bind_eq_ok.mp h
    rw [weightless_fields fs (fun i hi => hr i (.tail _ hi)) h2, hr _ (.head _) _ _ _ h1]

theorem weightless_read {E : Env} (hs : E.Sane) : ∀ (fuel : Nat) (i : SemId), Weightless E i → ∀ bs v rest,
    read E fuel i bs = .ok (v, rest) → rest = bs
  | 0, _, _, _, _, _, h => by cases h
  | fuel + 1, i, hw, bs, v, rest, h => by
    have ih := weightless_read hs fuel
    simp only [read] at h
    cases hw with
    | unit hf =>
      simp only [hf] at h
      cases h
      rfl
    | @empty _ j hf =>
      simp only [hf, readTy] at h
      split at h
      · obtain ⟨⟨l, b1⟩, h1, h2⟩ := Out.bind_eq_ok.mp h
        cases h2
        obtain ⟨rfl, hl⟩ := readRaw_ok h1
        rw [List.eq_nil_of_length_eq_zero hl, List.nil_append]
      · obtain ⟨⟨l, b1⟩, h1, h2⟩ := Out.bind_eq_ok.mp h
        cases h2
        cases h1
        rfl
    | @array _ j len hf hj =>
      simp only [hf, readTy] at h
      split at h
      · rename_i hb
        exfalso
        have hB : ∀ t, E.find j = some t → t = Ty.BYTE ∨ t = Ty.U8 := fun t ht => hs.byte _ _ hb ht
        cases hj with
        | unit h => rcases hB _ h with h | h <;> cases h
        | empty h => rcases hB _ h with h | h <;> cases h
        | array h _ => rcases hB _ h with h | h <;> cases h
        | tuple h _ => rcases hB _ h with h | h <;> cases h
        | struct h _ => rcases hB _ h with h | h <;> cases h
      · obtain ⟨⟨l, b1⟩, h1, h2⟩ := Out.bind_eq_ok.mp h
        cases h2
        exact weightless_items (ih j hj) _ h1
    | @tuple _ ids hf hids =>
      simp only [hf] at h
      obtain ⟨r, h1, h2⟩ := Out.bind_eq_ok.mp h
      cases r with
      | true =>
        exfalso
        cases hr : E.isRString ids with
        | ok r' =>
          rw [hr] at h1
          cases h1
          obtain ⟨A, C, sz, ⟨a, b, c, rfl, ha, -⟩, -⟩ := rstring_of_isRString hr
          have := hids a (.head _)
          cases this with
          | unit h => rw [ha] at h; cases h
          | empty h => rw [ha] at h; cases h
          | array h _ => rw [ha] at h; cases h
          | tuple h _ => rw [ha] at h; cases h
          | struct h _ => rw [ha] at h; cases h
        | err e => rw [hr] at h1; cases h1
        | panic => rw [hr] at h1; cases h1
        | diverge => rw [hr] at h1; cases h1
      | false =>
        obtain ⟨⟨l, b1⟩, h3, h4⟩ := Out.bind_eq_ok.mp h2
        cases h4
        exact weightless_tuple ids (fun j hj => ih j (hids j hj)) h3
    | @struct _ fs hf hfs =>
      simp only [hf] at h
      obtain ⟨⟨l, b1⟩, h1, h2⟩ := Out.bind_eq_ok.mp h
      cases h2
      exact weightless_fields fs (fun f hf => ih f.2 (hfs f hf)) h1

/-- As many items as announced, read from nothing. -/
theorem readItems_replicate {rec : SemId → Bytes → Out DErr (RdPair Val)} {i : SemId} {bs : Bytes} {v : Val}
    (h : rec i bs = .ok (v, bs)) : ∀ n, readItems rec i n bs = .ok (List.replicate n v, bs)
  | 0 => rfl
  | n + 1 => by simp [readItems, h, readItems_replicate h n, List.replicate_succ]

theorem spaceList_replicate (n b : Nat) (v : Val) : ∀ m, Val.spaceList n b (List.replicate m v) = m * v.space n b
  | 0 => by simp [Val.spaceList]
  | m + 1 => by
    rw [List.replicate_succ, Val.spaceList, spaceList_replicate n b v m, Nat.add_mul]
    omega

/-- Items of which one can be read from nothing are read in every number that the length can tell. -/
theorem read_units {E : Env} {fuel : Nat} {id i : SemId} {sz : Sizing} {v : Val} {t : Ty SemId}
    (hf : E.find id = some (.list i sz)) (hi : E.find i = some t) (hc : t.isCharEnum = false) (hb : i.isByte E.H = false)
    (hu : i.isUnicodeChar E.H = false) (hv : read E fuel i [] = .ok (v, [])) {n : Nat} (hn : n < 256 ^ sz.byteSize)
    (hm : InMemory E.valSize n) : read E (fuel + 1) id (le sz.byteSize n) = .ok (.list (List.replicate n v), []) := by
  have h1 := readLe_append hn []
  rw [List.append_nil] at h1
  have h2 : withCapacity E.valSize n = .ok () := if_pos hm
  simp [read, hf, readTy, readList, hi, hc, hb, hu, readSeq, h1, h2, readItems_replicate hv]

end Verif
