import Verif.Model.Shape
import Verif.Spec.Shape
import Verif.Spec.Reflect
import Verif.Props.Access
import Verif.Lemmas.Ast

/-!
# C90 and C91: predicates of types, values of Rust enums and options
-/

namespace Verif

/-! ## C90 -/

/-- **C90, types**: every type within the limits is exactly one of primitive, collection, compound and newtype, or
a struct of a single field, which is none of them. -/
theorem C90_one_of {Ref : Type} (t : Ty Ref) (hw : t.WF) :
    (t.isPrimitive = true ∧ t.isCollection = false ∧ t.isCompound = false ∧ t.isNewtype = false) ∨
    (t.isPrimitive = false ∧ t.isCollection = true ∧ t.isCompound = false ∧ t.isNewtype = false) ∨
    (t.isPrimitive = false ∧ t.isCollection = false ∧ t.isCompound = true ∧ t.isNewtype = false) ∨
    (t.isPrimitive = false ∧ t.isCollection = false ∧ t.isCompound = false ∧ t.isNewtype = true) ∨
    ((∃ f, t = .struct [f]) ∧
      t.isPrimitive = false ∧ t.isCollection = false ∧ t.isCompound = false ∧ t.isNewtype = false) := by
  cases t with
  | tuple fs =>
    match fs, hw with
    | [_], _ => simp [Ty.isPrimitive, Ty.isCollection, Ty.isCompound, Ty.isNewtype]
    | _ :: _ :: _, _ => simp [Ty.isPrimitive, Ty.isCollection, Ty.isCompound, Ty.isNewtype]
  | struct fs =>
    match fs, hw with
    | [_], _ => simp [Ty.isPrimitive, Ty.isCollection, Ty.isCompound, Ty.isNewtype]
    | _ :: _ :: _, _ => simp [Ty.isPrimitive, Ty.isCollection, Ty.isCompound, Ty.isNewtype]
  | _ => simp [Ty.isPrimitive, Ty.isCollection, Ty.isCompound, Ty.isNewtype]

/-- **C90, values**: the predicates tell what the values of the type look like; no value which is not a string looks
in two ways, so that the look of such a value decides the predicates. -/
theorem C90_values (E : Env) (b : Bool) (R : Val → SemId → Prop) (v : Val) (t : Ty SemId) (h : Inhabits E b R v t) :
    (t.isPrimitive = true → v.Looks .primitive) ∧ (t.isCollection = true → v.Looks .collection) ∧
    (t.isCompound = true → v.Looks .compound) ∧ (t.isNewtype = true → v.Looks .newtype) ∧
    ((∀ s, v ≠ .str s) → (v.Looks .primitive → t.isPrimitive = true) ∧ (v.Looks .collection → t.isCollection = true) ∧
      (v.Looks .compound → t.isCompound = true) ∧ (v.Looks .newtype → t.isNewtype = true)) := by
  cases h with
  | unit => exact ⟨fun _ => .unit, nofun, nofun, nofun, fun _ => ⟨fun _ => rfl, nofun, nofun, nofun⟩⟩
  | uint | byte | int | bigUint | bigInt =>
    exact ⟨fun _ => .num _, nofun, nofun, nofun, fun _ => ⟨fun _ => rfl, nofun, nofun, nofun⟩⟩
  | unicodeChar h => exact ⟨fun _ => .char h, nofun, nofun, nofun, fun h => absurd rfl (h _)⟩
  | enum => exact ⟨nofun, nofun, fun _ => .enum _, nofun, fun _ => ⟨nofun, nofun, fun _ => rfl, nofun⟩⟩
  | union => exact ⟨nofun, nofun, fun _ => .union _ _, nofun, fun _ => ⟨nofun, nofun, fun _ => rfl, nofun⟩⟩
  | @tuple l ids _ h =>
    have hl := all2_length h
    refine ⟨nofun, nofun, fun h => .tuple ?_, fun h => ?_, fun _ => ⟨nofun, nofun, fun h => ?_, fun h => ?_⟩⟩
    · simp only [Ty.isCompound, decide_eq_true_eq] at h; omega
    · simp only [Ty.isNewtype, beq_iff_eq] at h
      match l, hl.trans h with
      | [v], _ => exact .newtype v
    · cases h with
      | tuple h => simp only [Ty.isCompound, decide_eq_true_eq]; omega
    · cases h; simp only [Ty.isNewtype, beq_iff_eq]; rw [← hl]; rfl
  | rstring h =>
    obtain ⟨a, b, c, rfl, _⟩ := h
    exact ⟨nofun, nofun, fun _ => .rstring _, nofun, fun h => absurd rfl (h _)⟩
  | rstringEmpty h =>
    obtain ⟨a, b, c, rfl, _⟩ := h
    exact ⟨nofun, nofun, fun _ => .rstring _, nofun, fun h => absurd rfl (h _)⟩
  | @struct fs req h =>
    have hl := all2_length h
    refine ⟨nofun, nofun, fun h => .struct ?_, nofun, fun _ => ⟨nofun, nofun, fun h => ?_, nofun⟩⟩
    · simp only [Ty.isCompound, decide_eq_true_eq] at h; omega
    · cases h with
      | struct h => simp only [Ty.isCompound, decide_eq_true_eq]; omega
  | byteArray | byteList => exact ⟨nofun, fun _ => .bytes _, nofun, nofun, fun _ => ⟨nofun, fun _ => rfl, nofun, nofun⟩⟩
  | array | list => exact ⟨nofun, fun _ => .list _, nofun, nofun, fun _ => ⟨nofun, fun _ => rfl, nofun, nofun⟩⟩
  | asciiList | unicodeList => exact ⟨nofun, fun _ => .str _, nofun, nofun, fun h => absurd rfl (h _)⟩
  | set => exact ⟨nofun, fun _ => .set _, nofun, nofun, fun _ => ⟨nofun, fun _ => rfl, nofun, nofun⟩⟩
  | map => exact ⟨nofun, fun _ => .map _, nofun, nofun, fun _ => ⟨nofun, fun _ => rfl, nofun, nofun⟩⟩

example (debug : Bool) : ∃ v, WellTyped (exE debug) v (Id32.rep 6) ∧ v.Looks .collection ∧
    (Ty.list (SemId.byte toyHash) ⟨0, 255⟩ : Ty SemId).isCollection = true :=
  ⟨.bytes [1, 2], ⟨1, _, rfl, .byteList (by cases debug <;> decide) ⟨by decide, by decide⟩⟩, .bytes _, rfl⟩

theorem charVariants_all (vs : List Variant) :
    (vs.all fun v => 32 ≤ v.tag.toNat && v.tag.toNat ≤ 127) = true ↔ CharVariants vs := by
  simp [CharVariants]

theorem isCharEnum_embedded (t : Ty TranspileRef) (rs : List TranspileRef) :
    TranspileRef.isCharEnum (.tuple (.embedded t :: rs)) = TranspileRef.isCharEnum t := by
  rw [TranspileRef.isCharEnum]

theorem isCharEnum_first (t : Ty TranspileRef) : TranspileRef.isCharEnum t = true ↔ SpellsFirst t := by
  constructor
  · fun_induction TranspileRef.isCharEnum t with
    | case1 t rs ih => exact fun h => .tuple (ih h)
    | case2 vs => exact fun h => .enum ((charVariants_all vs).mp h)
    | case3 => exact nofun
  · intro h
    induction h with
    | enum h => rw [TranspileRef.isCharEnum]; exact (charVariants_all _).mpr h
    | tuple _ ih => rw [isCharEnum_embedded]; exact ih

/-- **C90 is violated** by enums of characters: a pair of a character and a number is taken for an enum of
characters; and what is taken for one while libraries are built is not any more after references have become ids. -/
theorem C90_char_enum_violated (H : Hash) :
    (∃ c n, TranspileRef.isCharEnum (.tuple [.embedded c, .embedded n]) = true ∧ n = .primitive 8) ∧
    ∃ t, Spells t ∧ TranspileRef.isCharEnum t = true ∧ (t.mapRefs (TranspileRef.id H)).isCharEnum = false := by
  refine ⟨⟨.enum [⟨n!"a", 97⟩], .primitive 8, ?_, rfl⟩, .tuple [.embedded (.enum [⟨n!"a", 97⟩])],
    .newtype (.enum ?_), ?_, rfl⟩
  · rw [isCharEnum_embedded, TranspileRef.isCharEnum]; rfl
  · rw [← charVariants_all]; rfl
  · rw [isCharEnum_embedded, TranspileRef.isCharEnum]; rfl

/-- **C90, enums of characters, partial**: enums of characters are recognised, also through wrappers defined in
place, and nothing else is, where no tuple of several fields is in the way; exactly, what is recognised has characters
in front. Types referred to by a name are not looked into. Missing: see `C90_char_enum_violated`. -/
theorem C90_char_enum_partial (t : Ty TranspileRef) :
    (Spells t → TranspileRef.isCharEnum t = true) ∧
    (SingleFile t → TranspileRef.isCharEnum t = true → Spells t) ∧
    (TranspileRef.isCharEnum t = true ↔ SpellsFirst t) ∧
    (∀ (u : Ty SemId), u.isCharEnum = true ↔ ∃ vs, u = .enum vs ∧ CharVariants vs) := by
  refine ⟨fun h => ?_, fun h => ?_, isCharEnum_first t, fun u => ?_⟩
  · induction h with
    | enum h => rw [TranspileRef.isCharEnum]; exact (charVariants_all _).mpr h
    | newtype _ ih => rw [isCharEnum_embedded]; exact ih
  · induction h with
    | tuple _ ih => rw [isCharEnum_embedded]; exact fun h => .newtype (ih h)
    | named | extern | empty => rw [TranspileRef.isCharEnum] <;> nofun
    | @other t h =>
      cases t with
      | tuple rs => exact absurd rfl (h rs)
      | enum vs => rw [TranspileRef.isCharEnum]; exact fun h => .enum ((charVariants_all _).mp h)
      | _ => rw [TranspileRef.isCharEnum] <;> nofun
  · cases u with
    | enum vs =>
      rw [Ty.isCharEnum, charVariants_all]
      exact ⟨fun h => ⟨vs, rfl, h⟩, fun ⟨_, e, h⟩ => by cases e; exact h⟩
    | _ => exact ⟨nofun, nofun⟩

example : SingleFile (.tuple [.embedded (.enum [⟨n!"a", 97⟩])]) := .tuple (.other nofun)

/-- **C90, variants**: a union within the limits has a first and a last variant, the ones of the smallest and the
greatest tag, and the names by position are those of the variants in the order of tags. -/
theorem C90_ends {Ref : Type} (vs : List (Variant × Ref)) (hw : (Ty.union vs).WF) :
    (∃ x r, unwrapFirst vs = .ok x ∧ (x, r) ∈ vs ∧ ∀ p ∈ vs, x.tag.toNat ≤ p.1.tag.toNat) ∧
    (∃ x r, unwrapLast vs = .ok x ∧ (x, r) ∈ vs ∧ ∀ p ∈ vs, p.1.tag.toNat ≤ x.tag.toNat) ∧
    (∀ i n, unionNameByPos vs i = some n ↔ ∃ t r, vs[i.toNat]? = some (⟨n, t⟩, r)) := by
  obtain ⟨h1, -, h2, -⟩ : VariantsWF (vs.map Prod.fst) := hw
  rw [List.pairwise_map] at h2
  refine ⟨?_, ?_, fun i n => ?_⟩
  · cases vs with
    | nil => simp at h1
    | cons p vs =>
      refine ⟨p.1, p.2, rfl, by simp, fun q hq => ?_⟩
      rcases List.mem_cons.1 hq with rfl | hq
      · exact Nat.le_refl _
      · exact Nat.le_of_lt ((List.pairwise_cons.1 h2).1 q hq)
  · rcases List.eq_nil_or_concat vs with rfl | ⟨pre, p, rfl⟩
    · simp at h1
    · rw [List.concat_eq_append] at *
      refine ⟨p.1, p.2, by simp [unwrapLast, Out.expect], by simp, fun q hq => ?_⟩
      rcases List.mem_append.1 hq with hq | hq
      · exact Nat.le_of_lt ((List.pairwise_append.1 h2).2.2 q hq p (by simp))
      · rw [List.mem_singleton.1 hq]; exact Nat.le_refl _
  · simp only [unionNameByPos, Option.map_eq_some_iff]
    exact ⟨fun ⟨⟨⟨_, t⟩, r⟩, h, e⟩ => ⟨t, r, by rw [h]; cases e; rfl⟩, fun ⟨t, r, h⟩ => ⟨_, h, rfl⟩⟩

example : (Ty.union [(⟨n!"b", 3⟩, Id32.rep 1), (⟨n!"a", 7⟩, Id32.rep 2)] : Ty SemId).WF := by decide

/-! ## C54, hashing -/

/-- **C54 is violated**: equal dependencies may hash differently, against the contract of hash maps. -/
theorem C54_hash_violated : ∃ a b : Dependency, a.eqv b = true ∧ a.hashed ≠ b.hashed :=
  ⟨⟨Id32.rep 1, n!"A"⟩, ⟨Id32.rep 2, n!"A"⟩, by decide, by decide⟩

/-- **C54, hashing, partial**: where different ids have different names, equal dependencies hash alike, and only they
do. -/
theorem C54_hash_partial (l : List Dependency) (hl : ∀ a ∈ l, ∀ b ∈ l, a.name = b.name → a.id = b.id)
    (a : Dependency) (ha : a ∈ l) (b : Dependency) (hb : b ∈ l) : a.eqv b = true ↔ a.hashed = b.hashed := by
  simp only [Dependency.eqv, Bool.or_eq_true, decide_eq_true_eq]
  exact ⟨fun h => h.elim id (hl a ha b hb), Or.inl⟩

example : ∀ a ∈ [(⟨Id32.rep 1, n!"A"⟩ : Dependency), ⟨Id32.rep 2, n!"B"⟩],
    ∀ b ∈ [(⟨Id32.rep 1, n!"A"⟩ : Dependency), ⟨Id32.rep 2, n!"B"⟩], a.name = b.name → a.id = b.id := by decide

/-! ## C91 -/

theorem unwrapEnumTag_iff (v : Val) (t : Tag) : v.unwrapEnumTag = .ok t ↔ ∃ k, v = wrapN k (.enum t) := by
  constructor
  · intro h
    obtain ⟨k, hk⟩ := (C48_unwrap v).1
    refine ⟨k, ?_⟩
    unfold Val.unwrapEnumTag at h
    split at h
    · rename_i t' e
      cases h
      rw [hk, e]
    · cases h
  · rintro ⟨k, rfl⟩
    unfold Val.unwrapEnumTag
    rw [skip_wrapN]
    rfl

/-- **C91, enums**: with distinct names and tags, a value gives a variant of the Rust enum exactly when, inside of any
number of wrappers, it names the variant or has its number; otherwise the conversion panics. -/
theorem C91_enum (vs : List Variant) (hw : VariantsWF vs) (v : Val) :
    (∀ x, v.unwrapEnum vs = .ok x ↔ x ∈ vs ∧ ∃ k w, v = wrapN k w ∧ Names w x) ∧
    ((∀ x ∈ vs, ∀ k w, v = wrapN k w → ¬ Names w x) → v.unwrapEnum vs = .panic) := by
  have key : ∀ x, v.unwrapEnum vs = .ok x ↔ x ∈ vs ∧ ∃ k w, v = wrapN k w ∧ Names w x := by
    intro x
    constructor
    · intro h
      unfold Val.unwrapEnum at h
      cases e : v.unwrapEnumTag with
      | ok t =>
        obtain ⟨k, hk⟩ := (unwrapEnumTag_iff v t).mp e
        rw [e] at h
        cases t with
        | name n =>
          have h : Out.expect (vs.find? fun x => x.name == n) = .ok x := h
          cases hf : vs.find? fun x => x.name == n with
          | none => rw [hf] at h; cases h
          | some y =>
            rw [hf] at h
            cases h
            have hn : x.name = n := by simpa using List.find?_some hf
            exact ⟨List.mem_of_find?_eq_some hf, k, _, hk, .inl (by rw [hn])⟩
        | ord n =>
          have h : Out.expect (vs.find? fun x => x.tag == n) = .ok x := h
          cases hf : vs.find? fun x => x.tag == n with
          | none => rw [hf] at h; cases h
          | some y =>
            rw [hf] at h
            cases h
            have hn : x.tag = n := by simpa using List.find?_some hf
            exact ⟨List.mem_of_find?_eq_some hf, k, _, hk, .inr (by rw [hn])⟩
      | _ => rw [e] at h; cases h
    · rintro ⟨hx, k, w, rfl, rfl | rfl⟩
      · unfold Val.unwrapEnum
        rw [(unwrapEnumTag_iff _ (.name x.name)).mpr ⟨k, rfl⟩]
        show Out.expect (vs.find? fun y => y.name == x.name) = _
        rw [(hw.find_name x).mpr hx]
        rfl
      · unfold Val.unwrapEnum
        rw [(unwrapEnumTag_iff _ (.ord x.tag)).mpr ⟨k, rfl⟩]
        show Out.expect (vs.find? fun y => y.tag == x.tag) = _
        rw [(hw.find_tag x).mpr hx]
        rfl
  refine ⟨key, fun h => ?_⟩
  cases e : v.unwrapEnum vs with
  | ok x =>
    obtain ⟨hx, k, w, hk, hn⟩ := (key x).mp e
    exact absurd hn (h x hx k w hk)
  | panic => rfl
  | _ =>
    exfalso
    unfold Val.unwrapEnum Val.unwrapEnumTag at e
    split at e
    · rename_i t _
      cases t with
      | name n =>
        have e : Out.expect (vs.find? fun x => x.name == n) = _ := e
        cases hf : vs.find? fun x => x.name == n <;> rw [hf] at e <;> cases e
      | ord n =>
        have e : Out.expect (vs.find? fun x => x.tag == n) = _ := e
        cases hf : vs.find? fun x => x.tag == n <;> rw [hf] at e <;> cases e
    · cases e

/-- **C91, typed values**: a value of an enum type, through any number of newtypes, converts into the Rust enum of the
same variants, and what a Rust program writes for the value is the tag of the variant. -/
theorem C91_typed (E : Env) (b : Bool) (v : Val) (id id' : SemId) (vs : List Variant) (hw : VariantsWF vs)
    (hv : Has E b v id) (hu : Unwraps E id id') (hf : E.find id' = some (.enum vs)) :
    ∃ x ∈ vs, v.unwrapEnum vs = .ok x ∧
      ∀ lib n, ∃ w k, v = wrapN k w ∧ (∀ bs, (RTy.enum lib n vs).Writes w bs ↔ bs = [x.tag]) := by
  obtain ⟨k, w, rfl, hw'⟩ := hu.value hv
  cases hw'.cases hf with
  | @enum _ n t h =>
    refine ⟨⟨n, t⟩, h, ((C91_enum vs hw _).1 _).mpr ⟨h, k, _, rfl, .inl rfl⟩, fun lib m => ⟨_, k, rfl, fun bs => ?_⟩⟩
    rw [RTy.Writes]
    constructor
    · rintro ⟨x, hx, e, rfl⟩
      cases e
      rw [show x = ⟨x.name, t⟩ from hw.name_inj hx h rfl]
    · rintro rfl
      exact ⟨_, h, rfl, rfl⟩

/-- **C91, booleans**: booleans are numbers of the variants of `Bool`. -/
theorem C91_bool (x : Bool) :
    (Val.bool x).unwrapEnum [⟨n!"false", 0⟩, ⟨n!"true", 1⟩] = .ok (if x then ⟨n!"true", 1⟩ else ⟨n!"false", 0⟩) := by
  cases x <;> rfl

/-- **C91, options**: what is made of an option gives the option back, inside of any number of wrappers; it is of the
type of options of a type exactly when the content is of that type. -/
theorem C91_option {T : Type} (f : T → Val) (o : Option T) (k : Nat) (E : Env) (id u s : SemId)
    (hu : E.find u = some Ty.UNIT)
    (hf : E.find id = some (.union [(⟨n!"none", 0⟩, u), (⟨n!"some", 1⟩, s)])) :
    (wrapN k (Val.ofOption f o)).unwrapOption = .ok (o.map f) ∧
    (WellTyped E (Val.ofOption f o) id ↔ ∀ x, o = some x → WellTyped E (f x) s) := by
  cases o with
  | none =>
    refine ⟨(C48_unwrap .unit).2.2.2.2.1 k, fun _ => nofun, fun _ => ?_⟩
    exact ⟨2, _, hf, .union (t := 0) (id := u) (by simp [Ty.noneName]) ⟨_, hu, .unit⟩⟩
  | some x =>
    refine ⟨(C48_unwrap (f x)).2.2.2.2.2 k, fun h y e => ?_, fun h => ?_⟩
    · cases e
      have hi := Has.cases h hf
      rw [Val.ofOption, Val.some] at hi
      cases hi with
      | @union _ n t r u h1 h2 =>
        rcases List.mem_cons.1 h1 with h1 | h1
        · exact absurd (congrArg (fun p => p.1.name) h1) (show ¬ Ty.someName = n!"none" by decide)
        · cases List.mem_singleton.1 h1
          exact h2
    · obtain ⟨n, hn⟩ := h x rfl
      exact ⟨n + 1, _, hf, .union (t := 1) (id := s) (by simp [Ty.someName]) hn⟩

example (debug : Bool) : ∃ s, (exE debug).find (Id32.rep 9) =
    some (.union [(⟨n!"none", 0⟩, SemId.unit toyHash), (⟨n!"some", 1⟩, s)]) ∧
    (exE debug).find (SemId.unit toyHash) = some Ty.UNIT :=
  ⟨Id32.rep 5, by cases debug <;> decide +kernel, by cases debug <;> decide +kernel⟩

example : VariantsWF exAlphabet := by decide

end Verif
