import Verif.Model.Builders
import Verif.Model.ByName
import Verif.Props.Builds

/-! # C110 for checking values and for the builders, call by call -/

namespace Verif

theorem typify_checked (E : Env) : ∀ fuel v id, typify E.checked fuel v id = typify E.unchecked fuel v id
  | 0, _, _ => rfl
  | fuel + 1, v, id => by
    have h : typify E.checked fuel = typify E.unchecked fuel := funext fun v => funext fun id => typify_checked E fuel v id
    unfold typify
    rw [E.checked_typeOf, E.unchecked_typeOf, h]
    rfl

/-- Checking values against types, by id or by name, is the same in both builds. -/
theorem C110_checking (E : Env) (S : SymbolicSys) (fuel : Nat) (v : Val) (id : SemId) (spec : TypeSpec) :
    typify E.checked fuel v id = typify E.unchecked fuel v id ∧
    S.typify E.checked fuel v spec = S.typify E.unchecked fuel v spec := by
  refine ⟨typify_checked E fuel v id, ?_⟩
  unfold SymbolicSys.typify
  have h : ∀ id, Verif.typify (S.env E.checked) fuel v id = Verif.typify (S.env E.unchecked) fuel v id :=
    fun id => typify_checked (S.env E) fuel v id
  simp only [h]

example : typify (exE true) 5 exVal (Id32.rep 14) = .ok exVal ∧ typify (exE false) 5 exVal (Id32.rep 14) = .ok exVal :=
  ⟨rfl, rfl⟩

section
variable {P : Type} [BuilderParent P]

/-- The parent of a builder compiles types alike in both builds, up to panics of the checks. -/
def BelowParent (P : Type) [BuilderParent P] : Prop :=
  ∀ H t (p : P), Below (BuilderParent.compile H true t p) (BuilderParent.compile H false t p)

theorem belowParent_transpiler : BelowParent Transpiler := fun H t _ => below_compileType H _ _ (below_encode H t) _

theorem belowParent_union : BelowParent UnionBuilder := fun H t _ => .bind (below_compileType H _ _ (below_encode H t) _) fun _ => .rfl

theorem below_defineField (hP : BelowParent P) (H : Hash) (s : StructBuilder P) (name : Option Name) (t : RTy) :
    Below (s.defineField H true name t) (s.defineField H false name t) :=
  .bind (hP H t _) fun _ => .rfl

theorem below_writeField (hP : BelowParent P) (H : Hash) (s : StructBuilder P) (name : Option Name) (t : RTy) :
    Below (s.writeField H true name t) (s.writeField H false name t) := by
  refine .bind (hP H t _) fun p => ?_
  cases s.cursor with
  | none => exact .rfl
  | some pos =>
    dsimp only
    split
    · split
      · by_cases h : pos = 255
        · simp only [h, Bool.true_and, decide_true, if_true]; exact .panic
        · simp only [h, Bool.true_and, Bool.false_and, decide_false, Bool.false_eq_true, if_false]; exact .rfl
      · exact .rfl
    · exact .rfl

theorem below_defineFields (hP : BelowParent P) (H : Hash) : ∀ (fs : List (Option Name × RTy)) (s : StructBuilder P),
    Below (s.defineFields H true fs) (s.defineFields H false fs)
  | [], _ => .rfl
  | (n, t) :: fs, s => .bind (below_defineField hP H s n t) fun s => below_defineFields hP H fs s

theorem below_structFields (hP : BelowParent P) (H : Hash) : ∀ (fs : List (Option Name × RTy)) (s : StructBuilder P),
    Below (s.writeFields H true fs) (s.writeFields H false fs)
  | [], _ => .rfl
  | (n, t) :: fs, s => .bind (below_writeField hP H s n t) fun s => below_structFields hP H fs s

theorem below_defineAll (H : Hash) : ∀ (vs : List (Name × Payload)) (u : UnionBuilder),
    Below (u.defineAll H true vs) (u.defineAll H false vs)
  | [], _ => .rfl
  | (n, p) :: vs, u => by
    refine .bind ?_ fun u => below_defineAll H vs u
    cases p with
    | unit => exact .rfl
    | fields isTuple fs =>
      exact .bind (.bind (.bind .rfl fun _ => .bind (below_defineFields belowParent_union H fs _) fun _ => .rfl) fun _ => .rfl)
        fun _ => .rfl

theorem below_unionWrite (H : Hash) (u : UnionBuilder) (name : Name) (p : Payload) :
    Below (u.write H true name p) (u.write H false name p) := by
  cases p with
  | unit => exact .rfl
  | fields isTuple fs => exact .bind (.bind (below_structFields belowParent_union H fs _) fun _ => .rfl) fun _ => .rfl

end

/-- **C110 for the builders of structs and unions, partial**: what is built by their calls with checks is built without.
Missing: that the checks do not panic (`C110_builders_violated`). -/
theorem C110_builders_partial (H : Hash) (lib : Name) (name : Option Name) (isTuple : Bool) (fs : List (Option Name × RTy))
    (declared : List Variant) (vs : List (Name × Payload)) (written : Name × Payload) (b : Transpiler) :
    Below (writeRecord H true lib name isTuple fs b) (writeRecord H false lib name isTuple fs b) ∧
    Below (writeUnionTy H true lib name declared vs written b) (writeUnionTy H false lib name declared vs written b) :=
  ⟨.bind (below_structFields belowParent_transpiler H fs _) fun _ => .rfl,
    .bind (below_defineAll H vs _) fun _ => .bind .rfl fun _ => .bind .rfl fun _ =>
      .bind (below_unionWrite H _ written.1 written.2) fun _ => .rfl⟩

/-- **C110 is violated** by the builder of structs, for a field of a restricted string declared from zero characters on. -/
theorem C110_builders_violated (H : Hash) (b : Transpiler) : ∃ t : RTy,
    writeRecord H true n!"Lib" none true [(none, t)] b = .panic ∧
    ∃ b', writeRecord H false n!"Lib" none true [(none, t)] b = .ok b' :=
  ⟨.rstring (.prim 1) (.prim 1) ⟨0, 10⟩, rfl, _, rfl⟩

end Verif
