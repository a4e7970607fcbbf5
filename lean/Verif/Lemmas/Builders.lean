import Verif.Model.Builders
import Verif.Lemmas.Transpile

/-! # Lemmas about the builders of structs and unions -/

namespace Verif

/-! ## Fields -/

/-- A parent which compiles and reports as the library builder inside it. -/
structure Lens (P : Type) [BuilderParent P] (get : P → Transpiler) (put : P → Transpiler → P) : Prop where
  putGet : ∀ p, put p (get p) = p
  putPut : ∀ p b c, put (put p b) c = put p c
  getPut : ∀ p b, get (put p b) = b
  compile : ∀ H debug t p, BuilderParent.compile H debug t p =
    (compileType H t.lib t.name (t.encode H debug) (get p)).bind fun x => .ok (x.1, put p x.2)
  report : ∀ H lib name ty p, BuilderParent.report H lib name ty p =
    ((get p).report H lib name ty).bind fun b => .ok (put p b)

theorem Out.bind_def {ε α β : Type} (x : Out ε α) (f : α → Out ε β) : x >>= f = x.bind f := rfl

theorem Out.bind_ok_self {ε α : Type} (x : Out ε α) : x.bind .ok = x := by cases x <;> rfl

theorem Out.bind_assoc' {ε α β γ : Type} (x : Out ε α) (f : α → Out ε β) (g : β → Out ε γ) :
    (x.bind f).bind g = x.bind fun a => (f a).bind g := by cases x <;> rfl

theorem lens_lib : Lens Transpiler id (fun _ b => b) where
  putGet _ := rfl
  putPut _ _ _ := rfl
  getPut _ _ := rfl
  compile H debug t p := by
    simp only [BuilderParent.compile, id]
    exact (Out.bind_ok_self _).symm
  report H lib name ty p := by
    simp only [BuilderParent.report, id]
    exact (Out.bind_ok_self _).symm

theorem lens_union : Lens UnionBuilder UnionBuilder.parent (fun u b => { u with parent := b }) where
  putGet _ := rfl
  putPut _ _ _ := rfl
  getPut _ _ := rfl
  compile _ _ _ _ := rfl
  report _ _ _ _ _ := rfl

variable {P : Type} [BuilderParent P] {get : P → Transpiler} {put : P → Transpiler → P}

theorem writeFields_eq (L : Lens P get put) (H : Hash) (debug : Bool) :
    ∀ (fs : List (Option Name × RTy)) (s : StructBuilder P), s.cursor = none →
    s.writeFields H debug fs = (RTy.encodeFields H debug fs (get s.parent)).bind fun x =>
      .ok { s with parent := put s.parent x.2, fields := s.fields ++ x.1 }
  | [], s, _ => by
    simp [StructBuilder.writeFields, RTy.encodeFields, Out.bind, L.putGet]
  | (n, t) :: fs, s, hs => by
    simp only [StructBuilder.writeFields, StructBuilder.writeField, RTy.encodeFields, RTy.encodeField, L.compile,
      Out.bind_def, Out.bind_assoc', hs]
    cases compileType H t.lib t.name (t.encode H debug) (get s.parent) with
    | ok x =>
      obtain ⟨r, b⟩ := x
      simp only [Out.bind, Out.pure_eq]
      rw [writeFields_eq L H debug fs _ rfl]
      simp only [L.getPut, L.putPut]
      cases RTy.encodeFields H debug fs b <;> simp [Out.bind]
    | err e => rfl
    | panic => rfl
    | diverge => rfl

theorem defineFields_eq (L : Lens P get put) (H : Hash) (debug : Bool) :
    ∀ (fs : List (Option Name × RTy)) (s : StructBuilder P),
    s.defineFields H debug fs = (RTy.encodeFields H debug fs (get s.parent)).bind fun x =>
      .ok { s with parent := put s.parent x.2, fields := s.fields ++ x.1 }
  | [], s => by
    simp [StructBuilder.defineFields, RTy.encodeFields, Out.bind, L.putGet]
  | (n, t) :: fs, s => by
    simp only [StructBuilder.defineFields, StructBuilder.defineField, RTy.encodeFields, RTy.encodeField, L.compile,
      Out.bind_def, Out.bind_assoc']
    cases compileType H t.lib t.name (t.encode H debug) (get s.parent) with
    | ok x =>
      obtain ⟨r, b⟩ := x
      simp only [Out.bind, Out.pure_eq]
      rw [defineFields_eq L H debug fs _]
      simp only [L.getPut, L.putPut]
      cases RTy.encodeFields H debug fs b <;> simp [Out.bind]
    | err e => rfl
    | panic => rfl
    | diverge => rfl

theorem definer_eq (L : Lens P get put) (H : Hash) (debug : Bool) (lib : Name) (name : Option Name) (isTuple : Bool)
    (fs : List (Option Name × RTy)) (p : P) (d : Bool) :
    (((StructBuilder.with lib name isTuple p d).defineFields H debug fs).bind fun s => s.completeDefinition H) =
      ((RTy.record lib name isTuple fs).encode H debug (get p)).bind fun b => .ok (put p b) := by
  rw [defineFields_eq L]
  simp only [StructBuilder.with, RTy.encode, StructBuilder.completeDefinition, Out.bind_def, Out.bind_assoc', L.report,
    List.nil_append]
  cases RTy.encodeFields H debug fs (get p) <;> simp [Out.bind, L.getPut, L.putPut]

theorem writer_eq (L : Lens P get put) (H : Hash) (debug : Bool) (lib : Name) (name : Option Name) (isTuple : Bool)
    (fs : List (Option Name × RTy)) (p : P) :
    (((StructBuilder.with lib name isTuple p false).writeFields H debug fs).bind fun s => s.completeWrite H) =
      ((RTy.record lib name isTuple fs).encode H debug (get p)).bind fun b => .ok (put p b) := by
  rw [writeFields_eq L _ _ _ _ rfl]
  simp only [StructBuilder.with, RTy.encode, StructBuilder.completeWrite, Out.bind_def, Out.bind_assoc', L.report,
    List.nil_append]
  cases RTy.encodeFields H debug fs (get p) <;> simp [Out.bind, L.getPut, L.putPut]

theorem encodeFields_length {H : Hash} {debug : Bool} : ∀ {fs : List (Option Name × RTy)} {b : Transpiler}
    {x : List (Option Name × TranspileRef) × Transpiler}, RTy.encodeFields H debug fs b = .ok x →
    x.1.length = fs.length
  | [], b, x, h => by
    simp only [RTy.encodeFields, Out.ok.injEq] at h
    subst h
    rfl
  | f :: fs, b, x, h => by
    simp only [RTy.encodeFields] at h
    obtain ⟨⟨r, b1⟩, -, h⟩ := Out.bind_eq_ok.mp h
    obtain ⟨⟨rs, b2⟩, h1, h⟩ := Out.bind_eq_ok.mp h
    simp only [Out.pure_eq, Out.ok.injEq] at h
    subst h
    simpa using encodeFields_length h1

/-- Writing moves the cursor and appends to the fields. -/
theorem writeField_cursor {H : Hash} {debug : Bool} {s s' : StructBuilder P} {pos : Byte} {n : Option Name} {t : RTy}
    (hc : s.cursor = some pos) (h : s.writeField H debug n t = .ok s') :
    s'.cursor = some (pos + 1) ∧ s'.fields.length = s.fields.length + 1 ∧ pos.toNat < s.fields.length := by
  obtain ⟨⟨r, p⟩, -, h⟩ := Out.bind_eq_ok.mp h
  simp only [hc] at h
  split at h
  · rename_i e
    split at h
    · split at h
      · simp at h
      · simp only [Out.pure_eq, Out.ok.injEq] at h
        subst h
        exact ⟨rfl, by simp, (List.getElem?_eq_some_iff.mp e).1⟩
    · simp at h
  · simp at h

theorem writeFields_cursor {H : Hash} {debug : Bool} : ∀ {fs : List (Option Name × RTy)} {s s' : StructBuilder P}
    {pos : Byte}, s.cursor = some pos → s.writeFields H debug fs = .ok s' →
    s'.cursor = some (pos + BitVec.ofNat 8 fs.length) ∧ s'.fields.length = s.fields.length + fs.length ∧
      (fs ≠ [] → pos.toNat < s.fields.length)
  | [], s, s', pos, hc, h => by
    simp only [StructBuilder.writeFields, Out.ok.injEq] at h
    subst h
    simp [hc]
  | (n, t) :: fs, s, s', pos, hc, h => by
    obtain ⟨s1, h1, h2⟩ := Out.bind_eq_ok.mp h
    obtain ⟨a1, a2, a3⟩ := writeField_cursor hc h1
    obtain ⟨b1, b2, -⟩ := writeFields_cursor a1 h2
    refine ⟨?_, by simp only [List.length_cons]; omega, fun _ => a3⟩
    rw [b1]
    simp only [List.length_cons, Option.some.injEq]
    apply BitVec.eq_of_toNat_eq
    have h1 : BitVec.toNat (1 : Byte) = 1 := rfl
    simp only [BitVec.toNat_add, BitVec.toNat_ofNat, h1]
    omega

/-! ## Variants -/

theorem report_last (H : Hash) (b : Transpiler) (l : Option TranspileRef) (lib : Name) (name : Option Name)
    (ty : Ty TranspileRef) : Transpiler.report H { b with last := l } lib name ty = b.report H lib name ty := rfl

theorem tagByName_ok {u : UnionBuilder} {v : Variant} (hn : u.declared.Pairwise fun v w => v.name ≠ w.name)
    (hv : v ∈ u.declared) : u.tagByName v.name = .ok v.tag := by
  have : u.declared.find? (fun w => w.name == v.name) = some v := by
    revert hn hv
    generalize u.declared = l
    intro hn hv
    induction l with
    | nil => simp at hv
    | cons w l ih =>
      rw [List.pairwise_cons] at hn
      rcases List.mem_cons.mp hv with rfl | hv
      · simp
      · rw [List.find?_cons_of_neg (by simpa using hn.1 v hv)]
        exact ih hn.2 hv
  simp [UnionBuilder.tagByName, this, Out.expect]

theorem enumVariants_eq (H : Hash) : ∀ (vs : List Variant) (u : UnionBuilder),
    (u.declared.Pairwise fun v w => v.name ≠ w.name) → (∀ v ∈ vs, v ∈ u.declared) →
    ∃ m l, u.defineVariants H (vs.map Variant.name) =
      .ok { u with variants := m, parent := { u.parent with last := l },
                   defined := vs.foldl (fun s v => insertTag (fun v => v.tag.toNat) v s) u.defined }
  | [], u, _, _ => ⟨u.variants, u.parent.last, rfl⟩
  | v :: vs, u, hn, hv => by
    have e : u.defineVariant H v.name = .ok { u with
        variants := OMap.insert u.variants v.tag (.embedded Ty.U8),
        parent := { u.parent with last := some (.embedded Ty.U8) },
        defined := insertTag (fun v => v.tag.toNat) v u.defined } := by
      have ht := tagByName_ok hn (hv v (by simp))
      unfold UnionBuilder.defineVariant UnionBuilder.report
      simp only [Transpiler.report, Out.bind_ok, Out.pure_eq, UnionBuilder.writerDefine]
      have e1 : UnionBuilder.tagByName { u with parent := { u.parent with last := some (.embedded Ty.U8) } } v.name =
        .ok v.tag := ht
      rw [e1]
      simp only [Out.bind_ok, UnionBuilder.defineLast, Out.expect]
      have e2 : ∀ d, UnionBuilder.tagByName { u with
          parent := { u.parent with last := some (.embedded Ty.U8) }, defined := d } v.name = .ok v.tag := fun _ => ht
      rw [e2]
      rfl
    simp only [List.map_cons, UnionBuilder.defineVariants, e, Out.bind_ok, List.foldl_cons]
    obtain ⟨m, l, h⟩ := enumVariants_eq H vs { u with
        variants := OMap.insert u.variants v.tag (.embedded Ty.U8),
        parent := { u.parent with last := some (.embedded Ty.U8) },
        defined := insertTag (fun v => v.tag.toNat) v u.defined } hn (fun w hw => hv w (by simp [hw]))
    exact ⟨m, l, h⟩

/-- The Rust type of the contents of a variant. -/
def Payload.rty (lib : Name) : Payload → RTy
  | .unit => .record lib none true []
  | .fields isTuple fs => .record lib none isTuple fs

/-- The builder of a union after the variants `s` were defined. -/
def UnionBuilder.after (u : UnionBuilder) (s : List (Variant × TranspileRef)) (b : Transpiler) : UnionBuilder :=
  ⟨u.lib, u.name, s.map fun p => (p.1.tag, p.2), b, u.declared, s.map Prod.fst⟩

theorem insertTag_map {α β : Type} (f : α → β) (tag : β → Nat) (x : α) : ∀ l : List α,
    insertTag tag (f x) (l.map f) = (insertTag (fun a => tag (f a)) x l).map f
  | [] => rfl
  | y :: l => by
    simp only [List.map_cons, insertTag]
    split
    · rfl
    · split
      · rfl
      · simp [insertTag_map f tag x l]

theorem insert_tag (v : Variant) (r : TranspileRef) : ∀ l : List (Variant × TranspileRef),
    OMap.insert (l.map fun p => (p.1.tag, p.2)) v.tag r =
      (insertTag (fun p => p.1.tag.toNat) (v, r) l).map fun p => (p.1.tag, p.2)
  | [] => rfl
  | y :: l => by
    simp only [List.map_cons, OMap.insert, insertTag, KeyOrd.lt, decide_eq_true_eq]
    split
    · rfl
    · rename_i hlt
      by_cases he : v.tag = y.1.tag
      · rw [if_pos he, if_pos (by rw [he])]
        simp [he]
      · rw [if_neg he, if_neg (fun h => he (BitVec.eq_of_toNat_eq h))]
        simp [insert_tag v r l]

theorem tagByName_after {u : UnionBuilder} {v : Variant} (hn : u.declared.Pairwise fun v w => v.name ≠ w.name)
    (hv : v ∈ u.declared) (lib : Name) (name : Option Name) (m : OMap Byte TranspileRef) (b : Transpiler)
    (d : List Variant) : UnionBuilder.tagByName ⟨lib, name, m, b, u.declared, d⟩ v.name = .ok v.tag :=
  tagByName_ok (u := ⟨lib, name, m, b, u.declared, d⟩) hn hv

theorem defineLast_after {u : UnionBuilder} {v : Variant} (hn : u.declared.Pairwise fun v w => v.name ≠ w.name)
    (hv : v ∈ u.declared) (s : List (Variant × TranspileRef)) (b : Transpiler) :
    UnionBuilder.defineLast ⟨u.lib, u.name, s.map fun p => (p.1.tag, p.2), b, u.declared,
        insertTag (fun v => v.tag.toNat) v (s.map Prod.fst)⟩ v.name =
      (Out.expect b.last).bind fun r => .ok (u.after (insertTag (fun v => v.1.tag.toNat) (v, r) s) b) := by
  simp only [UnionBuilder.defineLast, Out.bind_def]
  cases b.last with
  | none => rfl
  | some r =>
    simp only [Out.expect, Out.bind, tagByName_after hn hv, Out.pure_eq, UnionBuilder.after, insert_tag]
    rw [← insertTag_map Prod.fst (fun v : Variant => v.tag.toNat) (v, r) s]

theorem define_eq (H : Hash) (debug : Bool) {u : UnionBuilder} {v : Variant} (p : Payload)
    (hn : u.declared.Pairwise fun v w => v.name ≠ w.name) (hv : v ∈ u.declared) (s : List (Variant × TranspileRef))
    (b : Transpiler) :
    (u.after s b).define H debug v.name p = ((p.rty u.lib).encode H debug b).bind fun b =>
      (Out.expect b.last).bind fun r => .ok (u.after (insertTag (fun v => v.1.tag.toNat) (v, r) s) b) := by
  cases p with
  | unit =>
    simp only [UnionBuilder.define, UnionBuilder.defineUnit, UnionBuilder.report, Transpiler.report, Out.bind_ok,
      Out.pure_eq, UnionBuilder.writerDefine, Payload.rty, RTy.encode, RTy.encodeFields, buildStruct, List.isEmpty_nil,
      if_true, UnionBuilder.after, tagByName_after hn hv]
    exact defineLast_after hn hv s _
  | fields isTuple fs =>
    have h := definer_eq lens_union H debug u.lib none isTuple fs
      ⟨u.lib, u.name, s.map fun p => (p.1.tag, p.2), b, u.declared,
        insertTag (fun v => v.tag.toNat) v (s.map Prod.fst)⟩ true
    simp only [UnionBuilder.define, UnionBuilder.defineFields, UnionBuilder.split, UnionBuilder.writerDefine, Payload.rty,
      UnionBuilder.after, tagByName_after hn hv, Out.bind_ok, Out.pure_eq]
    simp only [Out.bind_def]
    rw [h]
    cases (RTy.record u.lib none isTuple fs).encode H debug b with
    | ok b => exact defineLast_after hn hv s b
    | err e => rfl
    | panic => rfl
    | diverge => rfl

theorem defineAll_eq (H : Hash) (debug : Bool) {u : UnionBuilder}
    (hn : u.declared.Pairwise fun v w => v.name ≠ w.name) : ∀ (vs : List (Variant × Payload))
    (_ : ∀ p ∈ vs, p.1 ∈ u.declared) (s : List (Variant × TranspileRef)) (b : Transpiler),
    (u.after s b).defineAll H debug (vs.map fun p => (p.1.name, p.2)) =
      (RTy.encodeVariants H debug (vs.map fun p => (p.1, p.2.rty u.lib)) b).bind fun x =>
        .ok (u.after (x.1.foldl (fun s v => insertTag (fun v => v.1.tag.toNat) v s) s) x.2)
  | [], _, _, _ => rfl
  | (v, p) :: vs, hv, s, b => by
    simp only [List.map_cons, UnionBuilder.defineAll, RTy.encodeVariants, RTy.encodeVariant, Out.bind_def, Out.pure_eq]
    rw [define_eq H debug p hn (hv (v, p) (by simp)), Out.bind_assoc', Out.bind_assoc', Out.bind_assoc']
    congr 1
    funext b
    rw [Out.bind_assoc', Out.bind_assoc']
    congr 1
    funext r
    simp only [Out.bind]
    rw [defineAll_eq H debug hn vs (fun q hq => hv q (by simp [hq]))]
    cases RTy.encodeVariants H debug (vs.map fun p => (p.1, p.2.rty u.lib)) b <;> rfl

theorem get_tag {s : List (Variant × TranspileRef)} (hs : s.Pairwise fun v w => v.1.tag.toNat < w.1.tag.toNat)
    {p : Variant × TranspileRef} (hp : p ∈ s) : OMap.get (s.map fun p => (p.1.tag, p.2)) p.1.tag = some p.2 := by
  induction s with
  | nil => simp at hp
  | cons q s ih =>
    rw [List.pairwise_cons] at hs
    rcases List.mem_cons.mp hp with rfl | hp
    · simp [OMap.get]
    · simp only [List.map_cons, OMap.get]
      rw [if_neg (fun h => by have := hs.1 p hp; rw [h] at this; omega)]
      exact ih hs.2 hp

theorem payloads_eq {m : OMap Byte TranspileRef} : ∀ {s : List (Variant × TranspileRef)},
    (∀ p ∈ s, m.get p.1.tag = some p.2) → UnionBuilder.payloads m (s.map Prod.fst) = .ok s
  | [], _ => rfl
  | p :: s, h => by
    have ih : UnionBuilder.payloads m (s.map Prod.fst) = .ok s := payloads_eq fun q hq => h q (by simp [hq])
    simp [UnionBuilder.payloads, h p (by simp), Out.expect, ih]

theorem pairwise_sortFold {α : Type} {tag : α → Nat} : ∀ (l s : List α), s.Pairwise (fun a b => tag a < tag b) →
    (l.foldl (fun s x => insertTag tag x s) s).Pairwise (fun a b => tag a < tag b)
  | [], _, h => h
  | _ :: l, _, h => pairwise_sortFold l _ (pairwise_insertTag h)

theorem build_after (u : UnionBuilder) (vs : List (Variant × TranspileRef)) (b : Transpiler) :
    (u.after (sortTags (fun v => v.1.tag.toNat) vs) b).build = buildUnion vs := by
  have h : (sortTags (fun v : Variant × TranspileRef => v.1.tag.toNat) vs).Pairwise
      fun v w => v.1.tag.toNat < w.1.tag.toNat := pairwise_sortFold vs [] .nil
  unfold UnionBuilder.build UnionBuilder.after buildUnion
  rw [payloads_eq fun p hp => get_tag h hp]
  rfl

theorem write_eq (H : Hash) (debug : Bool) (u : UnionBuilder) (name : Name) (p : Payload)
    (s : List (Variant × TranspileRef)) (b : Transpiler) :
    (u.after s b).write H debug name p = ((p.rty u.lib).encode H debug b).bind fun b => .ok (u.after s b) := by
  cases p with
  | unit => rfl
  | fields isTuple fs =>
    have h := writer_eq lens_union H debug u.lib none isTuple fs (u.after s b)
    simp only [UnionBuilder.write, UnionBuilder.writeFields, UnionBuilder.split, Payload.rty, UnionBuilder.after,
      Out.pure_eq] at h ⊢
    simp only [Out.bind_def]
    rw [h]
    cases (RTy.record u.lib none isTuple fs).encode H debug b <;> rfl

end Verif
