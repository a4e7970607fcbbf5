import Verif.Props.Codec

/-! # Lemmas on data which is cut off, and data which goes on -/

namespace Verif

/-- What is read from data followed by more: the same, with the rest longer by what follows. -/
def Followed {α : Type} (x : Bytes) : Out DErr (RdPair α) → Out DErr (RdPair α)
  | .ok (v, r) => .ok (v, r ++ x)
  | .err e => .err e
  | .panic => .panic
  | .diverge => .diverge

/-- The reader reports the end of the data, or what follows does not matter. -/
def Blind {α : Type} (f : Bytes → Out DErr (RdPair α)) : Prop :=
  ∀ p x, f p = .err .io ∨ f (p ++ x) = Followed x (f p)

theorem Blind.pure {α : Type} (a : α) : Blind fun bs => .ok (a, bs) := fun _ _ => .inr rfl

theorem Blind.err {α : Type} (e : DErr) : Blind (α := α) fun _ => .err e := fun _ _ => .inr rfl

theorem Blind.panic {α : Type} : Blind (α := α) fun _ => .panic := fun _ _ => .inr rfl

theorem Blind.bind {α β : Type} {f : Bytes → Out DErr (RdPair α)} {g : RdPair α → Out DErr (RdPair β)} (hf : Blind f)
    (hg : ∀ a, Blind fun r => g (a, r)) : Blind fun bs => f bs >>= g := by
  intro p x
  rcases hf p x with h | h
  · exact .inl (by show f p >>= g = _; rw [h]; rfl)
  · dsimp only
    cases hp : f p with
    | ok r =>
      rw [hp] at h
      rw [h]
      exact hg r.1 r.2 x
    | _ => rw [hp] at h; rw [h]; exact .inr rfl

/-- A step which does not read. -/
theorem Blind.after {α β : Type} {o : Out DErr β} {g : β → Bytes → Out DErr (RdPair α)} (hg : ∀ b, Blind (g b)) :
    Blind fun bs => o >>= fun b => g b bs := by
  intro p x
  cases o with
  | ok b => exact hg b p x
  | _ => exact .inr rfl

theorem blind_raw (n : Nat) : Blind (readRaw n) := by
  intro p x
  unfold readRaw
  by_cases h : n ≤ p.length
  · refine .inr ?_
    rw [if_pos h, if_pos (by simp; omega), List.take_append_of_le_length h, List.drop_append_of_le_length h]
    rfl
  · exact .inl (if_neg h)

theorem blind_le (n : Nat) : Blind (readLe n) := (blind_raw n).bind fun _ => .pure _

theorem blind_uint (n : Nat) : Blind (readUint n) := (blind_le n).bind fun _ => .pure _

theorem blind_int (n : Nat) : Blind (readInt n) := (blind_le n).bind fun _ => .pure _

theorem blind_prim (p : Byte) : Blind (readPrim p) := by
  unfold readPrim
  split
  · exact .pure _
  split
  · exact blind_uint _
  split
  · exact blind_uint _
  split
  · exact blind_int _
  split
  · exact blind_int _
  split
  · exact blind_int _
  split
  · exact blind_int _
  · exact .err _

theorem blind_ascii (w : Nat) : Blind (readAscii w) :=
  (blind_le w).bind fun n => (blind_raw n).bind fun s => by
    dsimp only
    split
    · exact .pure _
    · exact .err _

theorem blind_string (w : Nat) : Blind (readString w) :=
  (blind_le w).bind fun n => (blind_raw n).bind fun s => by
    dsimp only
    split
    · exact .pure _
    · exact .err _

theorem blind_blob (w : Nat) : Blind (readBlob w) :=
  (blind_le w).bind fun n => (blind_raw n).bind fun _ => .pure _

section
variable {rec : SemId → Bytes → Out DErr (RdPair Val)} (hrec : ∀ id, Blind (rec id))
include hrec

theorem blind_items (id : SemId) (n : Nat) : Blind (readItems rec id n) := by
  induction n with
  | zero => exact .pure _
  | succ n ih => exact (hrec id).bind fun _ => ih.bind fun _ => .pure _

theorem blind_pairs (kid id : SemId) (n : Nat) : Blind (readPairs rec kid id n) := by
  induction n with
  | zero => exact .pure _
  | succ n ih => exact (hrec kid).bind fun _ => (hrec id).bind fun _ => ih.bind fun _ => .pure _

theorem blind_tuple (ids : List SemId) : Blind (readTuple rec ids) := by
  induction ids with
  | nil => exact .pure _
  | cons id ids ih => exact (hrec id).bind fun _ => ih.bind fun _ => .pure _

theorem blind_fields (req : List (Name × SemId)) (acc : List (Name × Val)) : Blind (readFields rec req acc) := by
  induction req generalizing acc with
  | nil => exact .pure _
  | cons r req ih => exact (hrec r.2).bind fun v => ih (imInsert acc r.1 v)

theorem blind_seq (E : Env) (id : SemId) (w : Nat) : Blind (readSeq rec E id w) :=
  (blind_le w).bind fun n => .after fun _ => blind_items hrec id n

theorem blind_mapSeq (E : Env) (kid id : SemId) (w : Nat) : Blind (readMapSeq rec E kid id w) :=
  (blind_le w).bind fun n => .after fun _ => blind_pairs hrec kid id n

theorem blind_list (E : Env) (spec id : SemId) (sz : Sizing) : Blind (readList rec E spec id sz) := by
  unfold readList
  split
  · exact .err _
  · split
    · exact blind_ascii _
    split
    · exact blind_blob _
    split
    · exact blind_string _
    · exact (blind_seq hrec E id _).bind fun _ => .pure _

theorem blind_tupleTy (E : Env) (ids : List SemId) : Blind (readTupleTy rec E ids) := by
  refine Blind.after (g := fun b bs => if b = true then ofUnknown (E.rstringSizing ids) >>= fun o =>
    match o with
    | some (_, sz) => readAscii sz.byteSize bs
    | none => .panic
    else readTuple rec ids bs >>= fun p => .ok (.tuple p.1, p.2)) fun b => ?_
  cases b
  · exact (blind_tuple hrec ids).bind fun v => .pure (Val.tuple v)
  · simp only [if_true]
    refine Blind.after fun o => ?_
    cases o with
    | none => exact .panic
    | some o => exact blind_ascii _

theorem blind_ty (E : Env) (spec : SemId) (t : Ty SemId) : Blind (readTy rec E spec t) := by
  cases t with
  | primitive p => exact blind_prim p
  | unicodeChar => exact .panic
  | list id sz => exact blind_list hrec E spec id sz
  | tuple ids => exact blind_tupleTy hrec E ids
  | enum vs =>
    refine (blind_le 1).bind fun t => ?_
    dsimp only
    split
    · exact .err _
    · exact .pure _
  | union vs =>
    refine (blind_le 1).bind fun t => ?_
    dsimp only
    split
    · exact .err _
    · next q _ => exact (hrec _).bind fun v => .pure (Val.union (.name q.1.name) v)
  | struct req => exact (blind_fields hrec req []).bind fun v => .pure _
  | array id len =>
    unfold readTy
    dsimp only
    split
    · exact (blind_raw _).bind fun v => .pure (Val.bytes v)
    · exact (blind_items hrec id _).bind fun v => .pure (Val.list v)
  | set id sz => exact (blind_seq hrec E id _).bind fun v => .pure _
  | map kid id sz => exact (blind_mapSeq hrec E kid id _).bind fun v => .pure _

end

theorem blind_read (E : Env) (n : Nat) (id : SemId) : Blind (read E n id) := by
  induction n generalizing id with
  | zero => exact fun _ _ => .inr rfl
  | succ n ih =>
    intro p x
    simp only [read]
    cases h : E.find id with
    | none => exact .inr rfl
    | some t => exact blind_ty ih E id t p x

end Verif
