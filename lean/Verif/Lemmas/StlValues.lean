import Verif.Lemmas.TyCodecLib
import Verif.Spec.Stl

/-! # Libraries and systems are written as values of the types describing them -/

namespace Verif

/-! ### Building blocks -/

theorem all2_maps {α β γ : Type} {R : β → γ → Prop} {f : α → β} {g : α → γ} : ∀ {l : List α},
    (∀ a ∈ l, R (f a) (g a)) → All2 R (l.map f) (l.map g)
  | [], _ => trivial
  | a :: l, h => ⟨h a (by simp), all2_maps fun b hb => h b (List.mem_cons_of_mem _ hb)⟩

theorem RTy.writesVariants_mem {x : Variant × RTy} {w : Val} {b : Bytes} : ∀ {vs : List (Variant × RTy)}, x ∈ vs →
    x.2.Writes w b → RTy.WritesVariants vs (.union (.name x.1.name) w) (x.1.tag :: b)
  | y :: vs, h, hw => by
    rcases List.mem_cons.mp h with rfl | h
    · obtain ⟨x, t⟩ := x
      exact .inl ⟨w, b, rfl, rfl, hw⟩
    · exact .inr (RTy.writesVariants_mem h hw)

namespace Stl

theorem fields_nil : RTy.WritesFields [] [] [] := ⟨rfl, rfl⟩

theorem fields_cons {n : Option Name} {t : RTy} {v : Val} {a b : Bytes} {fs : List (Option Name × RTy)}
    {l : List (Option Name × Val)} (h : t.Writes v a) (hs : RTy.WritesFields fs l b) :
    RTy.WritesFields ((n, t) :: fs) ((n, v) :: l) (a ++ b) := ⟨v, l, a, b, rfl, rfl, h, hs⟩

theorem newtype_writes {n : Name} {t : RTy} {v : Val} {bs : Bytes} (h : t.Writes v bs) :
    (newtype n t).Writes (.tuple [v]) bs :=
  ⟨[(none, v)], rfl, by simpa using fields_cons (n := none) h fields_nil⟩

theorem payload0_writes : (payload []).Writes .unit [] := ⟨rfl, rfl⟩

theorem payload1_writes {t : RTy} {v : Val} {bs : Bytes} (h : t.Writes v bs) : (payload [t]).Writes (.tuple [v]) bs :=
  ⟨[(none, v)], rfl, by simpa using fields_cons (n := none) h fields_nil⟩

theorem payload2_writes {t t' : RTy} {v v' : Val} {bs bs' : Bytes} (h : t.Writes v bs) (h' : t'.Writes v' bs') :
    (payload [t, t']).Writes (.tuple [v, v']) (bs ++ bs') :=
  ⟨[(none, v), (none, v')], rfl, by simpa using fields_cons (n := none) h (fields_cons (n := none) h' fields_nil)⟩

theorem payload3_writes {t t' t'' : RTy} {v v' v'' : Val} {bs bs' bs'' : Bytes} (h : t.Writes v bs) (h' : t'.Writes v' bs')
    (h'' : t''.Writes v'' bs'') : (payload [t, t', t'']).Writes (.tuple [v, v', v'']) (bs ++ bs' ++ bs'') :=
  ⟨[(none, v), (none, v'), (none, v'')], rfl, by
    simpa using fields_cons (n := none) h (fields_cons (n := none) h' (fields_cons (n := none) h'' fields_nil))⟩

theorem rec_writes {n a b : Name} {t t' : RTy} {v v' : Val} {bs bs' : Bytes} (h : t.Writes v bs) (h' : t'.Writes v' bs') :
    (rec2 n [(a, t), (b, t')]).Writes (.struct [(a, v), (b, v')]) (bs ++ bs') :=
  ⟨[(some a, v), (some b, v')], rfl, by
    simpa using fields_cons (n := some a) h (fields_cons (n := some b) h' fields_nil)⟩

theorem union_writes {n x : Name} {k : Nat} {c : Byte} {t : RTy} {vs : List (Name × Byte × RTy)} {w : Val} {b : Bytes}
    (i : Nat) (hx : vs[i]? = some (x, c, t)) (hw : t.Writes w b) :
    (union n k vs).Writes (.union (.name x) w) (c :: b) :=
  RTy.writesVariants_mem (x := (⟨x, c⟩, t)) (List.mem_map.mpr ⟨_, List.mem_of_getElem? hx, rfl⟩) hw

theorem list_writes {α : Type} {t : RTy} (hb : t.isByte = false) (hl : t.isLetters = false) {sz : Sizing} {w : Nat}
    (hw : prefixWidth sz.max.toNat = w) {l : List α} (hs : sz.Allows l.length) {f : α → Val} {g : α → Bytes}
    (h : ∀ a ∈ l, t.Writes (f a) (g a)) : (RTy.list t sz).Writes (.list (l.map f)) (encSeq w g l) := by
  simp only [RTy.Writes, hb, hl, Bool.false_eq_true, if_false]
  refine ⟨l.map f, l.map g, rfl, all2_maps h, by simpa using hs, ?_⟩
  rw [encSeq, lenPrefix, hw, List.length_map, List.flatMap_def]

theorem set_writes {α : Type} {t : RTy} {sz : Sizing} {w : Nat}
    (hw : prefixWidth sz.max.toNat = w) {l : List α} (hs : sz.Allows l.length) {f : α → Val} {g : α → Bytes}
    (h : ∀ a ∈ l, t.Writes (f a) (g a)) : (RTy.set t sz).Writes (.set (l.map f)) (encSeq w g l) := by
  refine ⟨l.map f, l.map g, rfl, all2_maps h, by simpa using hs, ?_⟩
  rw [encSeq, lenPrefix, hw, List.length_map, List.flatMap_def]

theorem map_writes {α : Type} {k t : RTy} {sz : Sizing} {w : Nat}
    (hw : prefixWidth sz.max.toNat = w) {l : List α} (hs : sz.Allows l.length) {f : α → Val × Val} {g : α → Bytes × Bytes}
    {e : α → Bytes} (he : ∀ a ∈ l, e a = (g a).1 ++ (g a).2)
    (h : ∀ a ∈ l, k.Writes (f a).1 (g a).1 ∧ t.Writes (f a).2 (g a).2) :
    (RTy.map k t sz).Writes (.map (l.map f)) (encSeq w e l) := by
  refine ⟨l.map f, l.map g, rfl, all2_maps h, by simpa using hs, ?_⟩
  rw [encSeq, lenPrefix, hw, List.length_map, List.flatMap_def, List.map_map]
  rw [List.map_congr_left he]
  rfl

/-! ### Elements -/

theorem u8_writes (b : Byte) : u8.Writes (natVal b.toNat) [b] := by
  have h : PrimWrites (BitVec.ofNat 8 1) (natVal b.toNat) (le 1 (BitVec.ofNat 64 b.toNat).toNat) :=
    .uint (by omega) (by omega) (by have := b.isLt; simp; omega)
  have e : le 1 (BitVec.ofNat 64 b.toNat).toNat = [b] := by
    have := b.isLt
    simp [le]
    apply BitVec.eq_of_toNat_eq
    simp
    omega
  rwa [e] at h

theorem u16_writes (x : BitVec 16) : u16.Writes (natVal x.toNat) (le 2 x.toNat) := by
  have hx := x.isLt
  have e : (BitVec.ofNat 64 x.toNat).toNat = x.toNat := by simp; omega
  have h : PrimWrites (BitVec.ofNat 8 2) (natVal x.toNat) (le 2 (BitVec.ofNat 64 x.toNat).toNat) :=
    .uint (by omega) (by omega) (by omega)
  rwa [e] at h

theorem u64_writes (x : BitVec 64) : u64.Writes (.num (.uint x)) (le 8 x.toNat) :=
  PrimWrites.uint (n := 8) (by omega) (by omega) (by have := x.isLt; omega)

theorem sizing_writes (s : Sizing) : sizing.Writes s.val (encSizing s) := rec_writes (u64_writes _) (u64_writes _)

theorem bytes32_writes (i : Id32) : bytes32.Writes (.bytes i.bytes) (encId i) := by
  simp only [bytes32, RTy.Writes, RTy.isByte]
  exact ⟨rfl, i.len⟩

theorem semId_writes (i : Id32) : semId.Writes i.val (encId i) := newtype_writes (bytes32_writes i)

theorem typeLibId_writes (i : Id32) : typeLibId.Writes i.val (encId i) := newtype_writes (bytes32_writes i)

/-! ### Names -/

/-- The byte is one of the characters. -/
def hasTag (t : RTy) (b : Byte) : Bool :=
  match t.letters? with
  | some vs => vs.any fun v => v.tag = b
  | none => false

theorem letter_of {t : RTy} {b : Byte} (h : hasTag t b = true) : t.Letter b := by
  unfold hasTag at h
  split at h
  · rename_i vs hv
    obtain ⟨v, hm, h⟩ := List.any_eq_true.mp h
    exact ⟨vs, hv, v, hm, of_decide_eq_true h⟩
  · cases h

theorem byte_all {p : Byte → Bool} (h : ((List.range 256).all fun n => p (BitVec.ofNat 8 n)) = true) (b : Byte) :
    p b = true := by
  have := List.all_eq_true.mp h b.toNat (List.mem_range.mpr b.isLt)
  simpa using this

theorem numLodash {b : Byte} (h : isAlphaNumLodash b = true) : alphaNumLodash.Letter b := by
  have := byte_all (p := fun b => !isAlphaNumLodash b || hasTag alphaNumLodash b) (by decide +kernel) b
  exact letter_of (by simpa [h] using this)

theorem capsLodash {b : Byte} (h : (65 ≤ b.toNat ∧ b.toNat ≤ 90) ∨ b.toNat = 95) : alphaCapsLodash.Letter b := by
  have := byte_all (p := fun b => !decide ((65 ≤ b.toNat ∧ b.toNat ≤ 90) ∨ b.toNat = 95) || hasTag alphaCapsLodash b)
    (by decide +kernel) b
  exact letter_of (by simpa [h] using this)

theorem smallLodash {b : Byte} (h : (97 ≤ b.toNat ∧ b.toNat ≤ 122) ∨ b.toNat = 95) : alphaSmallLodash.Letter b := by
  have := byte_all (p := fun b => !decide ((97 ≤ b.toNat ∧ b.toNat ≤ 122) ∨ b.toNat = 95) || hasTag alphaSmallLodash b)
    (by decide +kernel) b
  exact letter_of (by simpa [h] using this)

theorem identString_writes {t : RTy} (n : Name) (h : ∀ b ∈ n.bytes.take 1, t.Letter b) :
    (identString t).Writes (.str n.bytes) (encName n) := by
  have hok := n.ok
  cases hb : n.bytes with
  | nil => simp [hb, nameOk] at hok
  | cons b bs =>
    rw [hb] at h
    simp only [hb, nameOk, Bool.and_eq_true, List.all_eq_true, decide_eq_true_eq] at hok
    refine ⟨b :: bs, rfl, h, fun c hc => numLodash (hok.1.2 c hc), ?_, ?_⟩
    · exact ⟨Nat.succ_le_succ (Nat.zero_le _), Nat.succ_le_succ hok.2⟩
    · rw [encName, hb]; rfl

theorem capital_writes {m n : Name} (h : n.Capital) : (newtype m (identString alphaCapsLodash)).Writes n.val (encName n) :=
  newtype_writes (identString_writes n fun b hb => capsLodash (h b hb))

theorem small_writes {m n : Name} (h : n.Small) : (newtype m (identString alphaSmallLodash)).Writes n.val (encName n) :=
  newtype_writes (identString_writes n fun b hb => smallLodash (h b hb))

/-! ### Types -/

theorem variant_writes {v : Variant} (h : v.name.Small) : variant.Writes v.val (encVariant v) :=
  rec_writes (small_writes h) (u8_writes _)

theorem enumVariants_writes {vs : List Variant} (hw : VariantsWF vs) (h : ∀ v ∈ vs, v.name.Small) :
    enumVariants.Writes (.tuple [.set (vs.map Variant.val)]) (encSeq 1 encVariant vs) :=
  newtype_writes (set_writes (sz := ⟨1, 255⟩) rfl ⟨hw.1, hw.2.1⟩ fun v hv => variant_writes (h v hv))

/-- A type is written as a value of the generic type, if references are. -/
theorem ty_writes {Ref : Type} (g : Generic) {r : RTy} (hb : r.isByte = false) (hl : r.isLetters = false)
    {f : Ref → Val} {e : Ref → Bytes} {t : Ty Ref} (hw : t.WF) (hs : t.Small)
    (hr : ∀ x ∈ t.refs, r.Writes (f x) (e x)) : (ty g r).Writes (t.val f) (t.encode e) := by
  cases t with
  | primitive c => exact union_writes 0 rfl (payload1_writes (newtype_writes (u8_writes c)))
  | unicodeChar => exact union_writes 1 rfl payload0_writes
  | enum vs => exact union_writes 2 rfl (payload1_writes (enumVariants_writes hw hs))
  | union vs =>
    refine union_writes 3 rfl (payload1_writes (newtype_writes ?_))
    have hlen : (vs.map Prod.fst).length = vs.length := by simp
    have hs : ∀ v ∈ vs, v.1.name.Small := hs
    have he : unionFields vs = vs.map fieldOf := unionFields_eq hw
    have : encSeq 1 (fun x : Byte × Name × Ref => x.1 :: encPair encName e x.2) (unionFields vs) =
        encSeq 1 (fun v : Variant × Ref => v.1.tag :: encPair encName e (v.1.name, v.2)) vs := by
      rw [he, encSeq, encSeq, List.length_map, List.flatMap_map]
      rfl
    rw [this]
    refine map_writes rfl ⟨Nat.zero_le _, by rw [← hlen]; exact hw.2.1⟩
      (g := fun v => ([v.1.tag], encName v.1.name ++ e v.2)) (fun _ _ => rfl) fun v hv => ⟨u8_writes _, ?_⟩
    exact rec_writes (small_writes (hs v hv)) (hr v.2 (List.mem_map.mpr ⟨v, hv, rfl⟩))
  | tuple fs =>
    refine union_writes 4 rfl (payload1_writes (newtype_writes (list_writes hb hl rfl ?_ hr)))
    exact hw
  | struct fs =>
    have hs : ∀ p ∈ fs, p.1.Small := hs
    refine union_writes 5 rfl (payload1_writes (newtype_writes (list_writes (f := fun p => _) (g := encPair encName e)
      rfl rfl rfl ?_ fun p hp => ?_)))
    · exact hw
    · exact rec_writes (small_writes (hs p hp)) (hr p.2 (List.mem_map.mpr ⟨p, hp, rfl⟩))
  | array t len => exact union_writes 6 rfl (payload2_writes (hr t (by simp [Ty.refs])) (u16_writes len))
  | list t sz => exact union_writes 7 rfl (payload2_writes (hr t (by simp [Ty.refs])) (sizing_writes sz))
  | set t sz => exact union_writes 8 rfl (payload2_writes (hr t (by simp [Ty.refs])) (sizing_writes sz))
  | map k t sz =>
    exact union_writes 9 rfl (payload3_writes (hr k (by simp [Ty.refs])) (hr t (by simp [Ty.refs])) (sizing_writes sz))

/-! ### References -/

theorem externRef_writes (e : ExternRef) : externRef.Writes e.val (encExtern e) :=
  rec_writes (typeLibId_writes _) (semId_writes _)

theorem ref2_writes (r : InlineRef2) : inlineRef2.Writes r.val r.encode := by
  cases r with
  | named id => exact union_writes 0 rfl (payload1_writes (semId_writes id))
  | extern e => exact union_writes 1 rfl (payload1_writes (externRef_writes e))

theorem ref1_writes {r : InlineRef1} (hd : r.Deep) (hs : r.Small) : inlineRef1.Writes r.val r.encode := by
  cases r with
  | inline t =>
    exact union_writes 0 rfl (payload1_writes (ty_writes _ rfl rfl hd hs fun x _ => ref2_writes x))
  | named id => exact union_writes 1 rfl (payload1_writes (semId_writes id))
  | extern e => exact union_writes 2 rfl (payload1_writes (externRef_writes e))

theorem ref0_writes {r : InlineRef} (hd : r.Deep) (hs : r.Small) : inlineRef.Writes r.val r.encode := by
  cases r with
  | inline t =>
    exact union_writes 0 rfl (payload1_writes (ty_writes _ rfl rfl hd.1 hs.1 fun x hx => ref1_writes (hd.2 x hx) (hs.2 x hx)))
  | named id => exact union_writes 1 rfl (payload1_writes (semId_writes id))
  | extern e => exact union_writes 2 rfl (payload1_writes (externRef_writes e))

theorem libRef_writes {r : LibRef} (hd : r.Deep) (hs : r.Small) : libRef.Writes r.val r.encode := by
  cases r with
  | inline t =>
    exact union_writes 0 rfl (payload1_writes (ty_writes _ rfl rfl hd.1 hs.1 fun x hx => ref0_writes (hd.2 x hx) (hs.2 x hx)))
  | named id => exact union_writes 1 rfl (payload1_writes (semId_writes id))
  | extern e => exact union_writes 2 rfl (payload1_writes (externRef_writes e))

/-! ### Libraries and systems -/

theorem dependency_writes {d : Dependency} (h : d.name.Capital) : dependency.Writes d.val (encDep d) :=
  rec_writes (typeLibId_writes _) (capital_writes h)

theorem typeLib_writes {l : TypeLib} (hw : l.WF) (hc : l.Cased) : typeLib.Writes l.val l.encode := by
  have h1 : depSet.Writes (.set (l.dependencies.map Dependency.val)) (encSeq 1 encDep l.dependencies) :=
    set_writes rfl ⟨Nat.zero_le _, hw.fewDeps⟩ fun d hd => dependency_writes (hc.deps d hd)
  have h2 : externTypes.Writes (.map (l.externTypes.map fun p => (p.1.val, .map (p.2.map fun q => (q.1.val, q.2.val)))))
      (encExternTypes l.externTypes) := by
    refine map_writes (f := fun p : Name × OMap SemId Name => (p.1.val, Val.map (p.2.map fun q => (q.1.val, q.2.val))))
      (g := fun p => (encName p.1, encSeq 2 (encPair encId encName) p.2)) (sz := ⟨0, 0xff⟩) rfl
      ⟨Nat.zero_le _, hw.fewExterns⟩ (fun _ _ => rfl) fun p hp => ⟨capital_writes (hc.externs p hp).1, ?_⟩
    exact map_writes (f := fun q : SemId × Name => (q.1.val, q.2.val)) (g := fun q => (encId q.1, encName q.2))
      (sz := ⟨0, 0xffff⟩) rfl ⟨Nat.zero_le _, (hw.externs p hp).2⟩ (fun _ _ => rfl)
      fun q hq => ⟨semId_writes _, capital_writes ((hc.externs p hp).2 q hq)⟩
  have h3 : typeMap.Writes (.map (l.types.map fun p => (p.1.val, p.2.val LibRef.val)))
      (encSeq 2 (encPair encName (Ty.encode LibRef.encode)) l.types) := by
    refine map_writes (f := fun p : Name × Ty LibRef => (p.1.val, p.2.val LibRef.val))
      (g := fun p => (encName p.1, p.2.encode LibRef.encode)) (sz := ⟨1, 0xffff⟩) rfl
      ⟨List.length_pos_iff.mpr hw.nonEmpty, hw.fewTypes⟩ (fun _ _ => rfl) fun p hp => ⟨capital_writes (hc.names p hp), ?_⟩
    exact ty_writes _ rfl rfl (hw.types p hp).1 (hc.types p hp).1 fun r hr =>
      libRef_writes ((hw.types p hp).2 r hr) ((hc.types p hp).2 r hr)
  refine ⟨[(some n!"name", _), (some n!"dependencies", _), (some n!"externTypes", _), (some n!"types", _)], rfl, ?_⟩
  have := fields_cons (n := some n!"name") (capital_writes (m := n!"LibName") hc.name)
    (fields_cons (n := some n!"dependencies") h1 (fields_cons (n := some n!"externTypes") h2
      (fields_cons (n := some n!"types") h3 fields_nil)))
  rw [List.append_nil, ← List.append_assoc, ← List.append_assoc] at this
  exact this

theorem typeSystem_writes {s : TypeSystem} (hw : s.Held) (hc : s.Cased) : typeSystem.Writes s.val s.encode := by
  refine newtype_writes ?_
  refine map_writes (f := fun p : SemId × Ty SemId => (p.1.val, p.2.val Id32.val))
    (g := fun p => (encId p.1, p.2.encode encId)) (sz := ⟨0, 0xffffff⟩) rfl ⟨Nat.zero_le _, hw.few⟩ (fun _ _ => rfl)
    fun p hp => ⟨semId_writes _, ?_⟩
  exact ty_writes _ rfl rfl (hw.types p hp) (hc p hp) fun r _ => semId_writes r

theorem typeSymbol_writes {s : TypeSymbol} (h : ∀ f, s.fqn = some f → f.lib.Capital ∧ f.name.Capital) :
    typeSymbol.Writes s.val (encSymbol s) := by
  refine rec_writes (semId_writes _) ?_
  cases hf : s.fqn with
  | none =>
    exact RTy.writesVariants_mem (x := (⟨n!"none", 0⟩, payload [])) (List.mem_cons_self ..) payload0_writes
  | some f =>
    refine RTy.writesVariants_mem (x := (⟨n!"some", 1⟩, payload [typeFqn])) (List.mem_cons_of_mem _ (List.mem_cons_self ..))
      (payload1_writes ?_)
    exact rec_writes (capital_writes (h f hf).1) (capital_writes (h f hf).2)

theorem symbols_writes {s : Symbols} (hw : s.Held) (hc : s.Cased) : symbols.Writes s.val s.encode :=
  rec_writes (set_writes (sz := ⟨0, 0xffff⟩) rfl ⟨Nat.zero_le _, hw.fewLibs⟩ fun d hd => dependency_writes (hc.libs d hd))
    (set_writes (sz := ⟨0, 0xffffff⟩) rfl ⟨Nat.zero_le _, hw.fewSymbols⟩ fun p hp => typeSymbol_writes (hc.symbols p hp))

theorem symbolicSys_writes {s : SymbolicSys} (hw : s.Held) (hs : s.symbols.Cased) (ht : s.types.Cased) :
    symbolicSys.Writes s.val s.encode :=
  rec_writes (symbols_writes hw.symbols hs) (typeSystem_writes hw.types ht)

/-! ### No repeated items -/

theorem Name.val_eqv {a b : Name} (h : a.val.eqv b.val = true) : a = b := by
  obtain ⟨a, ha⟩ := a
  obtain ⟨b, hb⟩ := b
  simp [Name.val, Val.eqv, Val.eqvList] at h
  simp [h]

theorem Id32.val_eqv {a b : Id32} (h : a.val.eqv b.val = true) : a = b := by
  simp [Id32.val, Val.eqv, Val.eqvList] at h
  exact Id32.ext h

theorem name_tidy (n : Name) : n.val.Tidy := .tuple fun v hv => by
  rw [List.mem_singleton.mp hv]; exact .str _

theorem id_tidy (i : Id32) : i.val.Tidy := .tuple fun v hv => by
  rw [List.mem_singleton.mp hv]; exact .bytes _

theorem tidy1 {v : Val} (h : v.Tidy) : (Val.tuple [v]).Tidy := .tuple fun w hw => by
  rw [List.mem_singleton.mp hw]; exact h

theorem tidy2 {v w : Val} (h : v.Tidy) (h' : w.Tidy) : (Val.tuple [v, w]).Tidy := .tuple fun x hx => by
  simp only [List.mem_cons, List.not_mem_nil, or_false] at hx
  rcases hx with rfl | rfl <;> assumption

theorem tidy3 {v w u : Val} (h : v.Tidy) (h' : w.Tidy) (h'' : u.Tidy) : (Val.tuple [v, w, u]).Tidy := .tuple fun x hx => by
  simp only [List.mem_cons, List.not_mem_nil, or_false] at hx
  rcases hx with rfl | rfl | rfl <;> assumption

theorem rec_tidy {a b : Name} {v w : Val} (h : v.Tidy) (h' : w.Tidy) : (Val.struct [(a, v), (b, w)]).Tidy :=
  .struct fun x hx => by
    simp only [List.mem_cons, List.not_mem_nil, or_false] at hx
    rcases hx with rfl | rfl <;> assumption

theorem sizing_tidy (s : Sizing) : s.val.Tidy := rec_tidy (.num _) (.num _)

theorem set_tidy {α : Type} {l : List α} {f : α → Val} (h : ∀ a ∈ l, (f a).Tidy)
    (hp : l.Pairwise fun a b => (f a).eqv (f b) = false) : (Val.set (l.map f)).Tidy :=
  .set (fun v hv => by obtain ⟨a, ha, rfl⟩ := List.mem_map.mp hv; exact h a ha) (List.pairwise_map.mpr hp)

theorem map_tidy {α : Type} {l : List α} {f : α → Val × Val} (h : ∀ a ∈ l, (f a).1.Tidy ∧ (f a).2.Tidy)
    (hp : l.Pairwise fun a b => (f a).1.eqv (f b).1 = false) : (Val.map (l.map f)).Tidy := by
  refine .map (fun v hv => ?_) (fun v hv => ?_) ?_
  · obtain ⟨a, ha, rfl⟩ := List.mem_map.mp hv; exact (h a ha).1
  · obtain ⟨a, ha, rfl⟩ := List.mem_map.mp hv; exact (h a ha).2
  · rw [List.map_map]; exact List.pairwise_map.mpr hp

theorem natVal_eqv {m n : Nat} (hm : m < 2 ^ 64) (hn : n < 2 ^ 64) (h : m ≠ n) : (natVal m).eqv (natVal n) = false := by
  simp only [natVal, Val.eqv, beq_eq_false_iff_ne, ne_eq, Num.uint.injEq]
  intro e
  have := congrArg BitVec.toNat e
  simp at this
  omega

theorem variant_eqv {a b : Variant} (h : a.name ≠ b.name) : a.val.eqv b.val = false := by
  apply Bool.eq_false_iff.mpr
  intro e
  simp [Variant.val, Val.eqv, Val.eqvFields, Val.eqvField, imGet] at e
  exact h (Name.val_eqv e.1)

theorem ty_tidy {Ref : Type} {f : Ref → Val} {t : Ty Ref} (hw : t.WF) (hr : ∀ x ∈ t.refs, (f x).Tidy) :
    (t.val f).Tidy := by
  cases t with
  | primitive c => exact .union (tidy1 (tidy1 (.num _)))
  | unicodeChar => exact .union .unit
  | enum vs =>
    refine .union (tidy1 (tidy1 (set_tidy (fun v _ => rec_tidy (name_tidy _) (.num _)) ?_)))
    exact hw.2.2.2.imp variant_eqv
  | union vs =>
    refine .union (tidy1 (tidy1 (map_tidy (fun v hv => ⟨.num _, rec_tidy (name_tidy _)
      (hr _ (List.mem_map.mpr ⟨v, hv, rfl⟩))⟩) ?_)))
    refine (List.pairwise_map.mp hw.2.2.1).imp fun {a b} h => natVal_eqv ?_ ?_ (by omega)
    · have := a.1.tag.isLt; omega
    · have := b.1.tag.isLt; omega
  | tuple fs =>
    exact .union (tidy1 (tidy1 (.list fun v hv => by obtain ⟨a, ha, rfl⟩ := List.mem_map.mp hv; exact hr a ha)))
  | struct fs =>
    refine .union (tidy1 (tidy1 (.list fun v hv => ?_)))
    obtain ⟨a, ha, rfl⟩ := List.mem_map.mp hv
    exact rec_tidy (name_tidy _) (hr a.2 (List.mem_map.mpr ⟨a, ha, rfl⟩))
  | array t len => exact .union (tidy2 (hr t (by simp [Ty.refs])) (.num _))
  | list t sz => exact .union (tidy2 (hr t (by simp [Ty.refs])) (sizing_tidy _))
  | set t sz => exact .union (tidy2 (hr t (by simp [Ty.refs])) (sizing_tidy _))
  | map k t sz => exact .union (tidy3 (hr k (by simp [Ty.refs])) (hr t (by simp [Ty.refs])) (sizing_tidy _))

theorem extern_tidy (e : ExternRef) : (externVal e).Tidy := .union (tidy1 (rec_tidy (id_tidy _) (id_tidy _)))

theorem ref2_tidy (r : InlineRef2) : r.val.Tidy := by
  cases r with
  | named id => exact .union (tidy1 (id_tidy _))
  | extern e => exact extern_tidy e

theorem ref1_tidy {r : InlineRef1} (hd : r.Deep) : r.val.Tidy := by
  cases r with
  | inline t => exact .union (tidy1 (ty_tidy hd fun x _ => ref2_tidy x))
  | named id => exact .union (tidy1 (id_tidy _))
  | extern e => exact extern_tidy e

theorem ref0_tidy {r : InlineRef} (hd : r.Deep) : r.val.Tidy := by
  cases r with
  | inline t => exact .union (tidy1 (ty_tidy hd.1 fun x hx => ref1_tidy (hd.2 x hx)))
  | named id => exact .union (tidy1 (id_tidy _))
  | extern e => exact extern_tidy e

theorem libRef_tidy {r : LibRef} (hd : r.Deep) : r.val.Tidy := by
  cases r with
  | inline t => exact .union (tidy1 (ty_tidy hd.1 fun x hx => ref0_tidy (hd.2 x hx)))
  | named id => exact .union (tidy1 (id_tidy _))
  | extern e => exact extern_tidy e

theorem key_ne {K : Type} [KeyOrd K] [LawfulKeyOrd K] {a b : K} (h : KeyOrd.lt a b = true) : a ≠ b := by
  rintro rfl
  rw [LawfulKeyOrd.irrefl] at h
  cases h

theorem id_eqv {a b : Id32} (h : KeyOrd.lt a b = true) : a.val.eqv b.val = false :=
  Bool.eq_false_iff.mpr fun e => key_ne h (Id32.val_eqv e)

theorem name_eqv {a b : Name} (h : KeyOrd.lt a b = true) : a.val.eqv b.val = false :=
  Bool.eq_false_iff.mpr fun e => key_ne h (Name.val_eqv e)

theorem deps_tidy {ds : List Dependency} (h : DepsSorted ds) : (Val.set (ds.map Dependency.val)).Tidy := by
  refine set_tidy (fun d _ => rec_tidy (id_tidy _) (name_tidy _)) (h.imp fun {a b} h => Bool.eq_false_iff.mpr fun e => ?_)
  simp [Dependency.val, Val.eqv, Val.eqvFields, Val.eqvField, imGet] at e
  exact key_ne h (Id32.val_eqv e.1)

theorem typeLib_tidy {l : TypeLib} (hw : l.WF) : l.val.Tidy := by
  refine .struct fun x hx => ?_
  simp only [List.mem_cons, List.not_mem_nil, or_false] at hx
  rcases hx with rfl | rfl | rfl | rfl
  · exact name_tidy _
  · exact deps_tidy hw.deps
  · exact map_tidy (fun p hp => ⟨name_tidy _, map_tidy (fun q _ => ⟨id_tidy _, name_tidy _⟩)
      ((hw.externs p hp).1.imp id_eqv)⟩) (hw.externSorted.imp name_eqv)
  · exact map_tidy (fun p hp => ⟨name_tidy _, ty_tidy (hw.types p hp).1 fun r hr => libRef_tidy ((hw.types p hp).2 r hr)⟩)
      (hw.typesSorted.imp name_eqv)

theorem typeSystem_tidy {s : TypeSystem} (hw : s.Held) : s.val.Tidy :=
  tidy1 (map_tidy (fun p hp => ⟨id_tidy _, ty_tidy (hw.types p hp) fun r _ => id_tidy r⟩) (hw.sorted.imp id_eqv))

theorem symbol_eqv {a b : TypeSymbol} (h : a.val.eqv b.val = true) : a = b := by
  obtain ⟨i, f⟩ := a
  obtain ⟨j, g⟩ := b
  simp [TypeSymbol.val, Val.eqv, Val.eqvFields, Val.eqvField, imGet] at h
  obtain ⟨h1, h2⟩ := h
  obtain rfl := Id32.val_eqv h1
  cases f with
  | none => cases g with
    | none => rfl
    | some g => simp [Val.eqv] at h2
  | some f => cases g with
    | none => simp [Val.eqv] at h2
    | some g =>
      simp [TypeFqn.val, Val.eqv, Val.eqvList, Val.eqvFields, Val.eqvField, imGet] at h2
      have e1 := Name.val_eqv h2.1
      have e2 := Name.val_eqv h2.2
      obtain ⟨f1, f2⟩ := f
      obtain ⟨g1, g2⟩ := g
      cases e1
      cases e2
      rfl

theorem symbols_tidy {s : Symbols} (hw : s.Held) : s.val.Tidy := by
  refine rec_tidy (deps_tidy hw.libs) (set_tidy (fun p _ => rec_tidy (id_tidy _) ?_)
    (hw.symbols.imp fun {a b} h => Bool.eq_false_iff.mpr fun e => key_ne h (symbol_eqv e)))
  split
  · exact .union .unit
  · exact .union (tidy1 (rec_tidy (name_tidy _) (name_tidy _)))

theorem symbolicSys_tidy {s : SymbolicSys} (hw : s.Held) : s.val.Tidy :=
  rec_tidy (symbols_tidy hw.symbols) (typeSystem_tidy hw.types)

end Stl
end Verif
