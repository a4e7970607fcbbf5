import Verif.Spec.TyCodec
import Verif.Lemmas.Basic

/-!
# Lemmas on the binary form of types, libraries and systems
-/

namespace Verif
variable {α β γ : Type}

/-! ## Elements: reading back -/

theorem decRaw_append (s rest : Bytes) : decRaw s.length (s ++ rest) = .ok (s, rest) := by
  simp [decRaw]

theorem decRaw_ok {n : Nat} {bs b rest : Bytes} (h : decRaw n bs = .ok (b, rest)) :
    bs = b ++ rest ∧ b.length = n := by
  unfold decRaw at h
  split at h
  · cases h
    exact ⟨by simp, by simp; omega⟩
  · cases h

theorem decNat_append {w n : Nat} (h : n < 256 ^ w) (rest : Bytes) :
    decNat w (le w n ++ rest) = .ok (n, rest) := by
  have := decRaw_append (le w n) rest
  rw [le_length] at this
  simp [decNat, this, fromLe_le_of_lt h]

theorem decNat_ok {w n : Nat} {bs rest : Bytes} (h : decNat w bs = .ok (n, rest)) :
    bs = le w n ++ rest ∧ n < 256 ^ w := by
  obtain ⟨⟨b, r⟩, h1, h2⟩ := Out.bind_eq_ok.mp h
  obtain ⟨rfl, hl⟩ := decRaw_ok h1
  cases h2
  subst hl
  exact ⟨by rw [le_fromLe], fromLe_lt b⟩

theorem decByte_ok {b : Byte} {bs rest : Bytes} (h : decByte bs = .ok (b, rest)) :
    bs = b :: rest := by
  cases bs with
  | nil => cases h
  | cons c cs => cases h; rfl

theorem decName_append (n : Name) : ReadsBack encName decName n := by
  intro rest
  have h1 := n.length_le
  unfold encName decName
  rw [List.append_assoc, decNat_append (by omega)]
  simp [decRaw_append, Out.ofOption]

theorem decName_ok : Canonical encName decName := by
  intro bs n rest h
  obtain ⟨⟨len, b1⟩, h1, h2⟩ := Out.bind_eq_ok.mp h
  obtain ⟨⟨s, b2⟩, h3, h4⟩ := Out.bind_eq_ok.mp h2
  obtain ⟨m, h5, h6⟩ := Out.bind_eq_ok.mp h4
  cases h6
  obtain ⟨rfl, _⟩ := decNat_ok h1
  obtain ⟨hb, hl⟩ := decRaw_ok h3
  cases ho : Name.ofBytes? s with
  | none => rw [ho] at h5; cases h5
  | some m' =>
    rw [ho] at h5
    cases h5
    rw [Name.ofBytes?_eq_some] at ho
    subst ho
    rw [hb]
    subst hl
    simp [encName]

theorem decId_append (i : Id32) : ReadsBack encId decId i := by
  intro rest
  have h := i.len
  unfold decId encId
  rw [dif_pos (by simp; omega)]
  congr 2
  · apply Id32.ext
    dsimp only
    rw [List.take_append_of_le_length (by omega), List.take_of_length_le (by omega)]
  · rw [List.drop_append_of_le_length (by omega), List.drop_of_length_le (by omega)]
    rfl

theorem decId_ok : Canonical encId decId := by
  intro bs i rest h
  unfold decId at h
  split at h
  · cases h
    simp [encId]
  · cases h

theorem decSizing_append (s : Sizing) : ReadsBack encSizing decSizing s := by
  intro rest
  have h1 := s.min.isLt
  have h2 := s.max.isLt
  unfold decSizing encSizing
  rw [List.append_assoc, decNat_append (by omega), Out.bind_ok]
  dsimp only
  rw [decNat_append (by omega)]
  simp

theorem decSizing_ok : Canonical encSizing decSizing := by
  intro bs s rest h
  obtain ⟨⟨lo, b1⟩, h1, h2⟩ := Out.bind_eq_ok.mp h
  obtain ⟨⟨hi, b2⟩, h3, h4⟩ := Out.bind_eq_ok.mp h2
  cases h4
  obtain ⟨rfl, hl⟩ := decNat_ok h1
  obtain ⟨hb, hh⟩ := decNat_ok h3
  subst hb
  unfold encSizing
  rw [BitVec.toNat_ofNat, BitVec.toNat_ofNat, Nat.mod_eq_of_lt (by omega), Nat.mod_eq_of_lt (by omega)]
  simp

theorem decVariant_append (v : Variant) : ReadsBack encVariant decVariant v := by
  intro rest
  unfold decVariant encVariant
  rw [List.append_assoc, decName_append]
  rfl

theorem decVariant_ok : Canonical encVariant decVariant := by
  intro bs v rest h
  obtain ⟨⟨n, b1⟩, h1, h2⟩ := Out.bind_eq_ok.mp h
  obtain ⟨⟨t, b2⟩, h3, h4⟩ := Out.bind_eq_ok.mp h2
  cases h4
  have h3 := decByte_ok h3
  subst h3
  rw [decName_ok _ _ _ h1]
  simp [encVariant]

theorem decPair_append {f : α → Bytes} {g : β → Bytes} {df : Bytes → Out CErr (α × Bytes)}
    {dg : Bytes → Out CErr (β × Bytes)} {p : α × β} (hf : ReadsBack f df p.1)
    (hg : ReadsBack g dg p.2) : ReadsBack (encPair f g) (decPair df dg) p := by
  intro rest
  unfold encPair decPair
  rw [List.append_assoc, hf, Out.bind_ok]
  dsimp only
  rw [hg]
  rfl

/-! ## Containers -/

theorem decN_append {f : α → Bytes} {d : Bytes → Out CErr (α × Bytes)} {l : List α}
    (h : ∀ a ∈ l, ReadsBack f d a) (rest : Bytes) :
    decN d l.length (l.flatMap f ++ rest) = .ok (l, rest) := by
  induction l with
  | nil => rfl
  | cons a l ih =>
    simp only [List.length_cons, decN, List.flatMap_cons, List.append_assoc]
    rw [h a (by simp), Out.bind_ok]
    dsimp only
    rw [ih fun a ha => h a (by simp [ha])]
    rfl

theorem decN_length {d : Bytes → Out CErr (α × Bytes)} {n : Nat} {bs : Bytes} {l : List α}
    {rest : Bytes} (h : decN d n bs = .ok (l, rest)) : l.length = n := by
  induction n generalizing bs l with
  | zero => cases h; simp
  | succ n ih =>
    obtain ⟨⟨a, b1⟩, h1, h2⟩ := Out.bind_eq_ok.mp h
    obtain ⟨⟨as, b2⟩, h3, h4⟩ := Out.bind_eq_ok.mp h2
    cases h4
    simp [ih h3]

theorem decVec_append {f : α → Bytes} {d : Bytes → Out CErr (α × Bytes)} {w lo : Nat} {l : List α}
    (h : ∀ a ∈ l, ReadsBack f d a) (hlo : lo ≤ l.length) (hhi : l.length < 256 ^ w) :
    ReadsBack (encSeq w f) (decVec w lo d) l := by
  intro rest
  unfold encSeq decVec
  rw [List.append_assoc, decNat_append hhi, Out.bind_ok]
  dsimp only
  rw [decN_append h]
  simp [checkMin, hlo]

/-! ### Ordered containers -/

/-- `a` comes before `b`, seen from either side. -/
def CmpLt (cmp : α → α → Ordering) (a b : α) : Prop := cmp a b = .lt ∧ cmp b a = .gt

theorem cmpInsert_last {cmp : α → α → Ordering} {acc : List α} {x : α}
    (h : ∀ a ∈ acc, cmp x a = .gt) : cmpInsert cmp acc x = some (acc ++ [x]) := by
  induction acc with
  | nil => rfl
  | cons y m ih =>
    simp only [cmpInsert, h y (by simp), ih fun a ha => h a (by simp [ha])]
    rfl

theorem cmpInsert_split {cmp : α → α → Ordering} {acc out : List α} {x : α}
    (h : cmpInsert cmp acc x = some out) : ∃ l r, acc = l ++ r ∧ out = l ++ x :: r := by
  induction acc generalizing out with
  | nil => cases h; exact ⟨[], [], rfl, rfl⟩
  | cons y m ih =>
    unfold cmpInsert at h
    split at h
    · cases h; exact ⟨[], y :: m, rfl, rfl⟩
    · cases h
    · obtain ⟨o, ho, rfl⟩ := Option.map_eq_some_iff.mp h
      obtain ⟨l, r, rfl, rfl⟩ := ih ho
      exact ⟨y :: l, r, rfl, rfl⟩

theorem decOrd_append {cmp : α → α → Ordering} {f : α → Bytes}
    {d : Bytes → Out CErr (α × Bytes)} {l acc : List α} (h : ∀ a ∈ l, ReadsBack f d a)
    (hs : (acc ++ l).Pairwise (CmpLt cmp)) (rest : Bytes) :
    decOrd cmp d l.length acc (l.flatMap f ++ rest) = .ok (acc ++ l, rest) := by
  induction l generalizing acc with
  | nil => simp [decOrd]
  | cons a l ih =>
    simp only [List.length_cons, decOrd, List.flatMap_cons, List.append_assoc]
    rw [h a (by simp), Out.bind_ok]
    dsimp only
    have hlt : ∀ b ∈ acc, CmpLt cmp b a := by
      intro b hb
      exact (List.pairwise_append.mp hs).2.2 b hb a (by simp)
    have h1 : lastGt cmp acc a = false := by
      unfold lastGt
      split
      · rfl
      · rename_i b hb
        have := (hlt b (List.mem_of_getLast? hb)).1
        simp [this]
    rw [h1, cmpInsert_last fun b hb => (hlt b hb).2]
    simp only [Bool.false_eq_true, if_false]
    have hs' : ((acc ++ [a]) ++ l).Pairwise (CmpLt cmp) := by simpa using hs
    rw [ih (fun b hb => h b (by simp [hb])) hs']
    simp

theorem decOrd_sublist {cmp : α → α → Ordering} {d : Bytes → Out CErr (α × Bytes)} {n : Nat}
    {acc out : List α} {bs rest : Bytes} (h : decOrd cmp d n acc bs = .ok (out, rest)) :
    acc.Sublist out := by
  induction n generalizing acc bs with
  | zero => cases h; exact List.Sublist.refl _
  | succ n ih =>
    obtain ⟨⟨x, b1⟩, h1, h2⟩ := Out.bind_eq_ok.mp h
    dsimp only at h2
    split at h2
    · cases h2
    · split at h2
      · cases h2
      · rename_i acc' hi
        obtain ⟨l, r, rfl, rfl⟩ := cmpInsert_split hi
        refine List.Sublist.trans ?_ (ih h2)
        exact List.Sublist.append_left (List.sublist_cons_self _ _) _

theorem decSet_append {cmp : α → α → Ordering} {f : α → Bytes}
    {d : Bytes → Out CErr (α × Bytes)} {w lo : Nat} {l : List α} (h : ∀ a ∈ l, ReadsBack f d a)
    (hs : l.Pairwise (CmpLt cmp)) (hlo : lo ≤ l.length) (hhi : l.length < 256 ^ w) :
    ReadsBack (encSeq w f) (decSet w lo cmp d) l := by
  intro rest
  unfold encSeq decSet
  rw [List.append_assoc, decNat_append hhi, Out.bind_ok]
  dsimp only
  rw [decOrd_append h (by simpa using hs)]
  simp [checkMin, hlo]

theorem cmpInsert_equal {κ : Type} [KeyOrd κ] [DecidableEq κ] [LawfulKeyOrd κ] {key : α → κ}
    {acc : List α} {x z : α} (hs : acc.Pairwise fun a b => KeyOrd.lt (key a) (key b) = true)
    (hz : z ∈ acc) (he : key z = key x) :
    cmpInsert (fun a b => keyCmp (key a) (key b)) acc x = none := by
  induction acc with
  | nil => cases hz
  | cons y m ih =>
    have hym := List.pairwise_cons.mp hs
    simp only [cmpInsert, keyCmp]
    by_cases hyx : KeyOrd.lt (key x) (key y) = true
    · exfalso
      rcases List.mem_cons.mp hz with rfl | hz
      · rw [he, LawfulKeyOrd.irrefl] at hyx; cases hyx
      · have := LawfulKeyOrd.trans _ _ _ hyx (hym.1 z hz)
        rw [he, LawfulKeyOrd.irrefl] at this; cases this
    · by_cases hex : key x = key y
      · simp [hex, LawfulKeyOrd.irrefl]
      · rcases List.mem_cons.mp hz with rfl | hz
        · exact absurd he.symm hex
        · have := ih hym.2 hz
          simp only [keyCmp] at this
          simp [hyx, hex, this]

/-- For a lawful order the result of reading is sorted. -/
theorem decOrd_sorted {κ : Type} [KeyOrd κ] [DecidableEq κ] [LawfulKeyOrd κ] {key : α → κ}
    {d : Bytes → Out CErr (α × Bytes)} {n : Nat} {acc out : List α} {bs rest : Bytes}
    (h : decOrd (fun a b => keyCmp (key a) (key b)) d n acc bs = .ok (out, rest))
    (hs : acc.Pairwise fun a b => KeyOrd.lt (key a) (key b) = true) :
    (out.Pairwise fun a b => KeyOrd.lt (key a) (key b) = true) ∧ out.length = acc.length + n := by
  induction n generalizing acc bs with
  | zero => cases h; exact ⟨hs, rfl⟩
  | succ n ih =>
    obtain ⟨⟨x, b1⟩, h1, h2⟩ := Out.bind_eq_ok.mp h
    dsimp only at h2
    split at h2
    · cases h2
    · rename_i hg
      split at h2
      · cases h2
      · rename_i acc' hi
        have key_lt : ∀ a ∈ acc', a ∈ acc → KeyOrd.lt (key a) (key x) = true := by
          intro a _ ha
          cases hl : acc.getLast? with
          | none => rw [List.getLast?_eq_none_iff.mp hl] at ha; cases ha
          | some z =>
            have hzx : KeyOrd.lt (key z) (key x) = true := by
              unfold lastGt at hg
              rw [hl] at hg
              simp only [keyCmp] at hg
              split at hg
              · assumption
              · split at hg
                · rename_i hne he
                  exfalso
                  rw [cmpInsert_equal hs (List.mem_of_getLast? hl) he] at hi
                  cases hi
                · exact absurd rfl hg
            by_cases haz : a = z
            · rw [haz]; exact hzx
            · refine LawfulKeyOrd.trans _ _ _ ?_ hzx
              obtain ⟨ini, rfl⟩ := List.getLast?_eq_some_iff.mp hl
              rcases List.mem_append.mp ha with ha | ha
              · exact (List.pairwise_append.mp hs).2.2 a ha z (by simp)
              · simp at ha; exact absurd ha haz
        have hlast : acc' = acc ++ [x] := by
          have : cmpInsert (fun a b => keyCmp (key a) (key b)) acc x = some (acc ++ [x]) := by
            apply cmpInsert_last
            intro a ha
            have hax : KeyOrd.lt (key a) (key x) = true := by
              obtain ⟨l, r, hacc, hacc'⟩ := cmpInsert_split hi
              refine key_lt a ?_ ha
              rw [hacc'] ; rw [hacc] at ha
              simp only [List.mem_append, List.mem_cons] at ha ⊢
              rcases ha with ha | ha
              · exact .inl ha
              · exact .inr (.inr ha)
            unfold keyCmp
            rw [KeyOrd.asymm hax]
            have := KeyOrd.ne_of_lt hax
            simp [Ne.symm this]
          rw [this] at hi
          exact (Option.some.inj hi).symm
        subst hlast
        have hs' : (acc ++ [x]).Pairwise fun a b => KeyOrd.lt (key a) (key b) = true := by
          rw [List.pairwise_append]
          refine ⟨hs, by simp, ?_⟩
          intro a ha b hb
          simp only [List.mem_singleton] at hb
          subst hb
          exact key_lt a (by simp [ha]) ha
        obtain ⟨h3, h4⟩ := ih h2 hs'
        exact ⟨h3, by simp at h4; omega⟩

theorem cmpLt_of_lt {κ : Type} [KeyOrd κ] [DecidableEq κ] [LawfulKeyOrd κ] {a b : κ}
    (h : KeyOrd.lt a b = true) : CmpLt (α := κ) keyCmp a b := by
  unfold CmpLt keyCmp
  rw [KeyOrd.asymm h, h]
  simp [Ne.symm (KeyOrd.ne_of_lt h)]

/-- Reading an ordered container with a lawful order: sorted result within the bounds. -/
theorem decSet_sorted {κ : Type} [KeyOrd κ] [DecidableEq κ] [LawfulKeyOrd κ] {key : α → κ}
    {d : Bytes → Out CErr (α × Bytes)} {w lo : Nat} {l : List α} {bs rest : Bytes}
    (h : decSet w lo (fun a b => keyCmp (key a) (key b)) d bs = .ok (l, rest)) :
    (l.Pairwise fun a b => KeyOrd.lt (key a) (key b) = true) ∧ lo ≤ l.length ∧
      l.length < 256 ^ w := by
  obtain ⟨⟨n, b1⟩, h1, h2⟩ := Out.bind_eq_ok.mp h
  obtain ⟨⟨l', b2⟩, h3, h4⟩ := Out.bind_eq_ok.mp h2
  obtain ⟨l'', h5, h6⟩ := Out.bind_eq_ok.mp h4
  cases h6
  unfold checkMin at h5
  split at h5
  · cases h5
    obtain ⟨hs, hl⟩ := decOrd_sorted h3 List.Pairwise.nil
    simp only [List.length_nil, Nat.zero_add] at hl
    obtain ⟨_, hn⟩ := decNat_ok h1
    exact ⟨hs, by assumption, by omega⟩
  · cases h5

/-! ## What was consumed -/

/-- Reading `a` consumes bytes related to `a` by `R`. -/
def Parsed (R : α → Bytes → Prop) (d : Bytes → Out CErr (α × Bytes)) : Prop :=
  ∀ bs a rest, d bs = .ok (a, rest) → ∃ c, bs = c ++ rest ∧ R a c

/-- The bytes are the encoding. -/
def Exact (f : α → Bytes) (a : α) (c : Bytes) : Prop := c = f a

/-- The bytes are the encoding or longer than it, if the object satisfies `P`. -/
def Near (f : α → Bytes) (P : α → Prop) (a : α) (c : Bytes) : Prop :=
  P a → c = f a ∨ (f a).length < c.length

theorem Canonical.parsed {f : α → Bytes} {d : Bytes → Out CErr (α × Bytes)} (h : Canonical f d) :
    Parsed (Exact f) d := fun bs a rest hd => ⟨f a, h bs a rest hd, rfl⟩

theorem Parsed.canonical {f : α → Bytes} {d : Bytes → Out CErr (α × Bytes)}
    (h : Parsed (Exact f) d) : Canonical f d := by
  intro bs a rest hd
  obtain ⟨c, hb, hc⟩ := h bs a rest hd
  rw [hb, hc]

theorem Parsed.near {f : α → Bytes} {P : α → Prop} {d : Bytes → Out CErr (α × Bytes)}
    (h : Parsed (Near f P) d) : NearCanonical f d P := by
  intro bs a rest hd hp
  obtain ⟨c, hb, hc⟩ := h bs a rest hd
  rcases hc hp with rfl | hc
  · exact .inl hb
  · right
    rw [hb, List.length_append]
    omega

theorem Parsed.mono {R S : α → Bytes → Prop} {d : Bytes → Out CErr (α × Bytes)} (h : Parsed R d)
    (hs : ∀ a c, R a c → S a c) : Parsed S d := by
  intro bs a rest hd
  obtain ⟨c, hb, hc⟩ := h bs a rest hd
  exact ⟨c, hb, hs a c hc⟩

theorem Parsed.bind {R : α → Bytes → Prop} {S : α → β → Bytes → Prop}
    {d : Bytes → Out CErr (α × Bytes)} {g : α × Bytes → Out CErr (β × Bytes)} (h : Parsed R d)
    (hg : ∀ a, Parsed (S a) fun bs => g (a, bs)) :
    Parsed (fun b c => ∃ a c1 c2, c = c1 ++ c2 ∧ R a c1 ∧ S a b c2) fun bs => d bs >>= g := by
  intro bs b rest hd
  obtain ⟨⟨a, b1⟩, h1, h2⟩ := Out.bind_eq_ok.mp hd
  obtain ⟨c1, rfl, hr⟩ := h _ _ _ h1
  obtain ⟨c2, rfl, hs⟩ := hg a _ _ _ h2
  exact ⟨c1 ++ c2, by simp, a, c1, c2, rfl, hr, hs⟩

theorem decPair_parsed {R : α → Bytes → Prop} {S : β → Bytes → Prop}
    {df : Bytes → Out CErr (α × Bytes)} {dg : Bytes → Out CErr (β × Bytes)} (hf : Parsed R df)
    (hg : Parsed S dg) :
    Parsed (fun p c => ∃ c1 c2, c = c1 ++ c2 ∧ R p.1 c1 ∧ S p.2 c2) (decPair df dg) := by
  intro bs p rest h
  obtain ⟨⟨a, b1⟩, h1, h2⟩ := Out.bind_eq_ok.mp h
  obtain ⟨⟨b, b2⟩, h3, h4⟩ := Out.bind_eq_ok.mp h2
  cases h4
  obtain ⟨c1, rfl, hr⟩ := hf _ _ _ h1
  obtain ⟨c2, hb, hs⟩ := hg _ _ _ h3
  exact ⟨c1 ++ c2, by rw [hb]; simp, c1, c2, rfl, hr, hs⟩

theorem decN_parsed {R : α → Bytes → Prop} {d : Bytes → Out CErr (α × Bytes)} (hd : Parsed R d)
    (n : Nat) : Parsed (fun l c => ∃ cs, c = cs.flatten ∧ All2 R l cs) (decN d n) := by
  induction n with
  | zero => intro bs l rest h; cases h; exact ⟨[], rfl, [], rfl, trivial⟩
  | succ n ih =>
    intro bs l rest h
    obtain ⟨⟨a, b1⟩, h1, h2⟩ := Out.bind_eq_ok.mp h
    obtain ⟨⟨as, b2⟩, h3, h4⟩ := Out.bind_eq_ok.mp h2
    cases h4
    obtain ⟨c, rfl, hr⟩ := hd _ _ _ h1
    obtain ⟨c', hb, cs, rfl, hs⟩ := ih _ _ _ h3
    exact ⟨c ++ cs.flatten, by rw [hb]; simp, c :: cs, rfl, hr, hs⟩

/-- Length prefix and items. -/
def SeqOf (w : Nat) (R : α → Bytes → Prop) (l : List α) (c : Bytes) : Prop :=
  ∃ cs, c = le w l.length ++ cs.flatten ∧ All2 R l cs

theorem decVec_parsed {R : α → Bytes → Prop} {d : Bytes → Out CErr (α × Bytes)} (hd : Parsed R d)
    {w lo : Nat} : Parsed (SeqOf w R) (decVec w lo d) := by
  intro bs l rest h
  obtain ⟨⟨n, b1⟩, h1, h2⟩ := Out.bind_eq_ok.mp h
  obtain ⟨⟨l', b2⟩, h3, h4⟩ := Out.bind_eq_ok.mp h2
  obtain ⟨l'', h5, h6⟩ := Out.bind_eq_ok.mp h4
  cases h6
  unfold checkMin at h5
  split at h5
  · cases h5
    obtain ⟨c, hb, cs, rfl, hs⟩ := decN_parsed hd _ _ _ _ h3
    have hl := decN_length h3
    obtain ⟨rfl, _⟩ := decNat_ok h1
    exact ⟨le w l.length ++ cs.flatten, by rw [hb, hl]; simp, cs, rfl, hs⟩
  · cases h5

theorem decOrd_parsed {cmp : α → α → Ordering} {R : α → Bytes → Prop}
    {d : Bytes → Out CErr (α × Bytes)} (hd : Parsed R d) {n : Nat} {acc out : List α}
    {bs rest : Bytes} (h : decOrd cmp d n acc bs = .ok (out, rest))
    (hs : out.Pairwise (CmpLt cmp)) :
    ∃ l cs, out = acc ++ l ∧ l.length = n ∧ bs = cs.flatten ++ rest ∧ All2 R l cs := by
  induction n generalizing acc bs with
  | zero => cases h; exact ⟨[], [], by simp [All2]⟩
  | succ n ih =>
    obtain ⟨⟨x, b1⟩, h1, h2⟩ := Out.bind_eq_ok.mp h
    dsimp only at h2
    split at h2
    · cases h2
    · rename_i hg
      split at h2
      · cases h2
      · rename_i acc' hi
        obtain ⟨l, r, rfl, rfl⟩ := cmpInsert_split hi
        have hsub := decOrd_sublist h2
        have hpw := hs.sublist hsub
        have hr : r = [] := by
          cases hl : r.getLast? with
          | none => exact List.getLast?_eq_none_iff.mp hl
          | some z =>
            exfalso
            apply hg
            have hz : z ∈ r := List.mem_of_getLast? hl
            have h3 := (List.pairwise_cons.mp (List.pairwise_append.mp hpw).2.1).1 z hz
            unfold lastGt
            rw [List.getLast?_append, hl]
            simp [h3.2]
        subst hr
        obtain ⟨l', cs, ho, hl, hb, hr⟩ := ih h2
        obtain ⟨c, rfl, hc⟩ := hd _ _ _ h1
        exact ⟨x :: l', c :: cs, by simp [ho], by simp [hl], by rw [hb]; simp, hc, hr⟩

theorem decOrd_suffix {cmp : α → α → Ordering} {R : α → Bytes → Prop}
    {d : Bytes → Out CErr (α × Bytes)} (hd : Parsed R d) {n : Nat} {acc out : List α}
    {bs rest : Bytes} (h : decOrd cmp d n acc bs = .ok (out, rest)) : ∃ c, bs = c ++ rest := by
  induction n generalizing acc bs with
  | zero => cases h; exact ⟨[], rfl⟩
  | succ n ih =>
    obtain ⟨⟨x, b1⟩, h1, h2⟩ := Out.bind_eq_ok.mp h
    dsimp only at h2
    split at h2
    · cases h2
    · split at h2
      · cases h2
      · obtain ⟨c, rfl, _⟩ := hd _ _ _ h1
        obtain ⟨c', hb⟩ := ih h2
        exact ⟨c ++ c', by rw [hb]; simp⟩

theorem decSet_parsed {cmp : α → α → Ordering} {R : α → Bytes → Prop}
    {d : Bytes → Out CErr (α × Bytes)} (hd : Parsed R d) {w lo : Nat} :
    Parsed (fun l c => l.Pairwise (CmpLt cmp) → SeqOf w R l c) (decSet w lo cmp d) := by
  intro bs l rest h
  obtain ⟨⟨n, b1⟩, h1, h2⟩ := Out.bind_eq_ok.mp h
  obtain ⟨⟨l', b2⟩, h3, h4⟩ := Out.bind_eq_ok.mp h2
  obtain ⟨l'', h5, h6⟩ := Out.bind_eq_ok.mp h4
  cases h6
  unfold checkMin at h5
  split at h5
  · cases h5
    by_cases hp : l.Pairwise (CmpLt cmp)
    · obtain ⟨l', cs, ho, hl, hb, hr⟩ := decOrd_parsed hd h3 hp
      simp only [List.nil_append] at ho
      subst ho
      obtain ⟨rfl, _⟩ := decNat_ok h1
      exact ⟨le w l.length ++ cs.flatten, by rw [hb, hl]; simp, fun _ => ⟨cs, rfl, hr⟩⟩
    · obtain ⟨c, hb⟩ := decOrd_suffix hd h3
      obtain ⟨rfl, _⟩ := decNat_ok h1
      exact ⟨le w n ++ c, by rw [hb]; simp, fun h => absurd h hp⟩
  · cases h5

/-- Reading an ordered container with a lawful order. -/
theorem decSet_parsed_key {κ : Type} [KeyOrd κ] [DecidableEq κ] [LawfulKeyOrd κ] {key : α → κ}
    {R : α → Bytes → Prop} {d : Bytes → Out CErr (α × Bytes)} (hd : Parsed R d) {w lo : Nat} :
    Parsed (SeqOf w R) (decSet w lo (fun a b => keyCmp (key a) (key b)) d) := by
  intro bs l rest h
  obtain ⟨c, hb, hc⟩ := decSet_parsed hd _ _ _ h
  exact ⟨c, hb, hc ((decSet_sorted h).1.imp fun h => cmpLt_of_lt h)⟩

theorem seqOf_exact {f : α → Bytes} {w : Nat} {l : List α} {c : Bytes}
    (h : SeqOf w (Exact f) l c) : c = encSeq w f l := by
  obtain ⟨cs, rfl, h⟩ := h
  unfold encSeq
  congr 1
  induction l generalizing cs with
  | nil => cases cs with
    | nil => rfl
    | cons => exact h.elim
  | cons a l ih => cases cs with
    | nil => exact h.elim
    | cons c cs =>
      have h1 : c = f a := h.1
      simp [h1, ih cs h.2]

theorem seqOf_near {f : α → Bytes} {P : α → Prop} {w : Nat} {l : List α} {c : Bytes}
    (h : SeqOf w (Near f P) l c) (hp : ∀ a ∈ l, P a) :
    c = encSeq w f l ∨ (encSeq w f l).length < c.length := by
  obtain ⟨cs, rfl, h⟩ := h
  unfold encSeq
  have : cs.flatten = l.flatMap f ∨ (l.flatMap f).length < cs.flatten.length := by
    induction l generalizing cs with
    | nil => cases cs with
      | nil => exact .inl rfl
      | cons => exact h.elim
    | cons a l ih => cases cs with
      | nil => exact h.elim
      | cons c cs =>
        have h1 := h.1 (hp a (by simp))
        have h2 := ih (fun b hb => hp b (by simp [hb])) cs h.2
        simp only [List.flatten_cons, List.flatMap_cons, List.length_append]
        rcases h1 with rfl | h1
        · rcases h2 with h2 | h2
          · exact .inl (by rw [h2])
          · right; omega
        · rcases h2 with h2 | h2
          · right; rw [h2]; omega
          · right; omega
  rcases this with h | h
  · exact .inl (by rw [h])
  · right
    simp only [List.length_append]
    omega

theorem near_of_exact {f : α → Bytes} {a : α} {c : Bytes} (h : Exact f a c) : Near f (fun _ => True) a c :=
  fun _ => .inl h

theorem pair_near {f : α → Bytes} {g : β → Bytes} {P : α → Prop} {Q : β → Prop} {p : α × β}
    {c1 c2 : Bytes} (h1 : Near f P p.1 c1) (h2 : Near g Q p.2 c2) :
    Near (encPair f g) (fun p => P p.1 ∧ Q p.2) p (c1 ++ c2) := by
  intro hp
  unfold encPair
  simp only [List.length_append]
  rcases h1 hp.1 with rfl | h1
  · rcases h2 hp.2 with rfl | h2
    · exact .inl rfl
    · right; omega
  · rcases h2 hp.2 with rfl | h2
    · right; omega
    · right; omega

theorem pair_exact {f : α → Bytes} {g : β → Bytes} {p : α × β} {c1 c2 : Bytes}
    (h1 : Exact f p.1 c1) (h2 : Exact g p.2 c2) : Exact (encPair f g) p (c1 ++ c2) := by
  unfold Exact at *
  rw [h1, h2]
  rfl

theorem decPair_exact {f : α → Bytes} {g : β → Bytes} {df : Bytes → Out CErr (α × Bytes)}
    {dg : Bytes → Out CErr (β × Bytes)} (hf : Canonical f df) (hg : Canonical g dg) :
    Canonical (encPair f g) (decPair df dg) :=
  ((decPair_parsed hf.parsed hg.parsed).mono fun _ _ ⟨_, _, hc, h1, h2⟩ =>
    hc ▸ pair_exact h1 h2).canonical

theorem decPair_near {f : α → Bytes} {g : β → Bytes} {df : Bytes → Out CErr (α × Bytes)}
    {dg : Bytes → Out CErr (β × Bytes)} {P : β → Prop} (hf : Canonical f df)
    (hg : Parsed (Near g P) dg) : Parsed (Near (encPair f g) fun p => P p.2) (decPair df dg) :=
  (decPair_parsed hf.parsed hg).mono fun _ _ ⟨_, _, hc, h1, h2⟩ hp =>
    hc ▸ pair_near (near_of_exact h1) h2 ⟨trivial, hp⟩

end Verif
