import Verif.Lemmas.Errors
import Verif.Lemmas.TypifyOut

/-!
# Errors of `typify` and of writing
-/

namespace Verif

/-! ## Layers -/

section
variable {P : TErr → Prop} {rec : Val → SemId → Out TErr Val}

theorem outMap_errs {f : Val → Out TErr Val} {l : List Val} (h : ∀ v ∈ l, Errs P (f v)) :
    Errs P (outMap f l) := by
  induction l with
  | nil => exact .ok _
  | cons v l ih =>
    exact (h v (by simp)).bind fun _ _ => (ih fun w hw => h w (by simp [hw])).bind fun _ _ => .ok _

theorem typifyZip_errs {l : List Val} {ids : List SemId}
    (h : ∀ v ∈ l, ∀ r ∈ ids, Errs P (rec v r)) : Errs P (typifyZip rec l ids) := by
  induction l generalizing ids with
  | nil => unfold typifyZip; exact .ok _
  | cons v l ih =>
    cases ids with
    | nil => unfold typifyZip; exact .ok _
    | cons i ids =>
      exact (h v (by simp) i (by simp)).bind fun _ _ =>
        (ih fun w hw r hr => h w (by simp [hw]) r (by simp [hr])).bind fun _ _ => .ok _

theorem fieldTy_none {req : List (Name × SemId)} {n : Name} (h : Ty.fieldTy req n = none) :
    ∀ f ∈ req, f.1 ≠ n := by
  intro f hf
  unfold Ty.fieldTy at h
  rw [Option.map_eq_none_iff] at h
  simpa using List.find?_eq_none.mp h f hf

theorem typifyFields_errs {req : List (Name × SemId)} {fs acc : List (Name × Val)}
    (h : ∀ f ∈ fs, ∀ r ∈ req.map Prod.snd, Errs P (rec f.2 r))
    (hx : ∀ f ∈ fs, (∀ g ∈ req, g.1 ≠ f.1) → P (.extraField f.1)) :
    Errs P (typifyFields rec req fs acc) := by
  induction fs generalizing acc with
  | nil => exact .ok _
  | cons f fs ih =>
    obtain ⟨n, v⟩ := f
    unfold typifyFields
    cases hf : Ty.fieldTy req n with
    | none => exact .err (hx (n, v) (by simp) (fieldTy_none hf))
    | some id =>
      exact (h (n, v) (by simp) id (fieldTy_mem hf)).bind fun _ _ =>
        ih (fun f hf => h f (by simp [hf])) fun f hf => hx f (by simp [hf])

theorem typifyMapFields_errs {req : List (Name × SemId)} {fs : List (Val × Val)}
    {acc : List (Name × Val)}
    (h : ∀ f ∈ fs, ∀ r ∈ req.map Prod.snd, Errs P (rec f.2 r))
    (hx : ∀ n v, (Val.str n.bytes, v) ∈ fs → (∀ g ∈ req, g.1 ≠ n) → P (.extraField n))
    (hn : ∀ s v, (Val.str s, v) ∈ fs → (∀ n : Name, n.bytes ≠ s) → P .invalidFieldName)
    (hm : ∀ k v, (k, v) ∈ fs → (∀ s, k ≠ .str s) → P .mapNotStructure) :
    Errs P (typifyMapFields rec req fs acc) := by
  induction fs generalizing acc with
  | nil => exact .ok _
  | cons f fs ih =>
    obtain ⟨k, v⟩ := f
    by_cases hk : ∃ s, k = .str s
    · obtain ⟨s, rfl⟩ := hk
      unfold typifyMapFields
      cases hs : Name.ofBytes? s with
      | none =>
        refine .err (hn s v (by simp) fun n hn' => ?_)
        rw [← hn', Name.ofBytes?_bytes] at hs
        cases hs
      | some n =>
        obtain rfl := Name.ofBytes?_eq_some.mp hs
        dsimp only
        cases hf : Ty.fieldTy req n with
        | none => exact .err (hx n v (by simp) (fieldTy_none hf))
        | some id =>
          exact (h (Val.str n.bytes, v) (by simp) id (fieldTy_mem hf)).bind fun _ _ =>
            ih (fun f hf => h f (by simp [hf])) (fun n v hf => hx n v (by simp [hf]))
              (fun s v hf => hn s v (by simp [hf])) fun k v hf => hm k v (by simp [hf])
    · have : typifyMapFields rec req ((k, v) :: fs) acc = .err .mapNotStructure := by
        cases k with
        | str s => exact absurd ⟨s, rfl⟩ hk
        | _ => rfl
      rw [this]
      exact .err (hm k v (by simp) fun s hs => hk ⟨s, hs⟩)

/-- The accumulated results are those of the items seen so far. -/
theorem typifySetItems_errs {id : SemId} {seen l acc : List Val}
    (hacc : ∀ a ∈ acc, ∃ x ∈ seen, rec x id = .ok a)
    (h : ∀ v ∈ l, Errs P (rec v id))
    (hr : ∀ a y c x' y', seen ++ l = a ++ y :: c → (∃ x ∈ a, rec x id = .ok x') →
      rec y id = .ok y' → x'.eqv y' = true → P .repeatedSetValue) :
    Errs P (typifySetItems rec id l acc) := by
  induction l generalizing acc seen with
  | nil => exact .ok _
  | cons v l ih =>
    refine (h v (by simp)).bind fun w hw => ?_
    split
    · rename_i hany
      obtain ⟨a, ha, he⟩ := List.any_eq_true.mp hany
      exact .err (hr seen v l a w rfl (hacc a ha) hw he)
    · refine ih (seen := seen ++ [v]) ?_ (fun x hx => h x (by simp [hx])) ?_
      · intro a ha
        rcases List.mem_append.mp ha with ha | ha
        · obtain ⟨x, hx, hxa⟩ := hacc a ha
          exact ⟨x, by simp [hx], hxa⟩
        · simp only [List.mem_singleton] at ha
          exact ⟨v, by simp, by rw [hw, ha]⟩
      · intro a y c x' y' hs
        exact hr a y c x' y' (by simpa using hs)

theorem typifyMapItems_errs {kid id : SemId} {seen l acc : List (Val × Val)}
    (hacc : ∀ a ∈ acc, ∃ x ∈ seen, rec x.1 kid = .ok a.1)
    (h : ∀ v ∈ l, Errs P (rec v.1 kid) ∧ Errs P (rec v.2 id))
    (hr : ∀ a y c x' y', seen ++ l = a ++ y :: c → (∃ x ∈ a, rec x.1 kid = .ok x') →
      rec y.1 kid = .ok y' → x'.eqv y' = true → P .repeatedKeyValue) :
    Errs P (typifyMapItems rec kid id l acc) := by
  induction l generalizing acc seen with
  | nil => exact .ok _
  | cons v l ih =>
    obtain ⟨h1, h2⟩ := h v (by simp)
    refine h1.bind fun w hw => h2.bind fun u hu => ?_
    split
    · rename_i hany
      obtain ⟨a, ha, he⟩ := List.any_eq_true.mp hany
      exact .err (hr seen v l a.1 w rfl (hacc a ha) hw he)
    · refine ih (seen := seen ++ [v]) ?_ (fun x hx => h x (by simp [hx])) ?_
      · intro a ha
        rcases List.mem_append.mp ha with ha | ha
        · obtain ⟨x, hx, hxa⟩ := hacc a ha
          exact ⟨x, by simp [hx], hxa⟩
        · simp only [List.mem_singleton] at ha
          exact ⟨v, by simp, by rw [hw, ha]⟩
      · intro a y c x' y' hs
        exact hr a y c x' y' (by simpa using hs)

end

/-! ## Errors raised at a place -/

section
variable {E : Env} {id : SemId} {v : Val}

theorem Blames.here {e : TErr} (h : Fault E id v e) : Blames E id v e :=
  ⟨id, v, .here id, .refl v, h⟩

theorem typifyPrim_errs (p : Byte) : Errs (· = .typeMismatch) (typifyPrim p v) := by
  unfold typifyPrim
  repeat' split
  all_goals first
    | exact .ok _
    | exact .err rfl

theorem typifyUnicode_errs : Errs (· = .typeMismatch) (typifyUnicode v) := by
  unfold typifyUnicode
  repeat' split
  all_goals first
    | exact .ok _
    | exact .err rfl

theorem typifyEnum_errs {vs : List Variant} :
    Errs (fun e => e = .typeMismatch ∨ (e = .enumTagInvalid ∧ Picks vs v)) (typifyEnum vs v) := by
  unfold typifyEnum
  split
  · split
    · exact .ok _
    · split
      · rename_i n hn
        split
        · exact .ok _
        · rename_i hh
          refine .err (Or.inr ⟨rfl, .str (Name.ofBytes?_eq_some.mp hn).symm fun x hx he => hh ?_⟩)
          exact List.any_eq_true.mpr ⟨x, hx, by simp [he]⟩
      · exact .err (Or.inl rfl)
  · split
    · exact .ok _
    · rename_i hn
      refine .err (Or.inr ⟨rfl, .name fun x hx => ?_⟩)
      unfold Ty.enumTagByName at hn
      rw [Option.map_eq_none_iff] at hn
      simpa using List.find?_eq_none.mp hn x hx
  · split
    · exact .ok _
    · rename_i hn
      exact .err (Or.inr ⟨rfl, .ord (readEnumTag_none hn)⟩)
  · split
    · rename_i hlt
      split
      · exact .ok _
      · rename_i hn
        refine .err (Or.inr ⟨rfl, .num fun x hx he => readEnumTag_none hn x hx ?_⟩)
        rw [← he]
        simp
    · exact .err (Or.inl rfl)
  · exact .err (Or.inl rfl)

theorem typifyArray_errs {i : SemId} {len : BitVec 16} :
    Errs (fun e => e = .typeMismatch ∨ (e = .outOfBounds ∧ BadCount (.array i len) v))
      (typifyArray E i len v) := by
  unfold typifyArray
  repeat' split
  all_goals first
    | exact .ok _
    | exact .err (Or.inl rfl)
    | exact .err (Or.inr ⟨rfl, .array (.bytes _) (by omega)⟩)
    | exact .err (Or.inr ⟨rfl, .array (.str _) (by omega)⟩)
    | exact .err (Or.inr ⟨rfl, .array (.list _) (by omega)⟩)

theorem Sizing.check_false {sz : Sizing} {c : Nat} (h : (!sz.check c) = true) :
    ¬(sz.min.toNat ≤ c ∧ c ≤ sz.max.toNat) := by
  simp only [Sizing.check, Bool.not_eq_true', Bool.and_eq_false_iff, decide_eq_false_iff_not] at h
  omega

end

theorem unionTyByName_none {vs : List (Variant × SemId)} {n : Name}
    (h : Ty.unionTyByName vs n = none) : ∀ x ∈ vs.map Prod.fst, x.name ≠ n := by
  intro x hx
  obtain ⟨p, hp, rfl⟩ := List.mem_map.mp hx
  unfold Ty.unionTyByName at h
  rw [Option.map_eq_none_iff] at h
  simpa using List.find?_eq_none.mp h p hp

theorem unionTyByTag_none {vs : List (Variant × SemId)} {t : Byte}
    (h : Ty.unionTyByTag vs t = none) : ∀ x ∈ vs.map Prod.fst, x.tag ≠ t := by
  intro x hx
  obtain ⟨p, hp, rfl⟩ := List.mem_map.mp hx
  unfold Ty.unionTyByTag at h
  rw [Option.map_eq_none_iff] at h
  simpa using List.find?_eq_none.mp h p hp

theorem typify_errs (E : Env) (n : Nat) (v : Val) (id : SemId) :
    Errs (Blames E id v) (typify E n v id) := by
  induction n generalizing v id with
  | zero => exact .diverge
  | succ n ih =>
    cases ht : E.typeOf id with
    | none =>
      simp only [typify, ht]
      refine .err (.here ⟨rfl, ?_⟩)
      unfold Env.typeOf at ht
      split at ht
      · cases ht
      · exact ⟨ht, by assumption⟩
    | some t =>
      have htyp : ∀ m, typify E (m + 1) v id = typifyTy (typify E m) E v t := by
        intro m
        simp only [typify, ht]
      have hget : E.find id = some t ∨ t = Ty.UNIT := by
        unfold Env.typeOf at ht
        split at ht
        · cases ht; exact Or.inr rfl
        · exact Or.inl ht
      have hrec : ∀ r ∈ t.refs, ∀ w, Occurs v w → Errs (Blames E id v) (typify E n w r) := by
        intro r hr w ho e he
        obtain ⟨j, u, h1, h2, h3⟩ := ih w r e he
        refine ⟨j, u, ?_, ho.trans h2, h3⟩
        rcases hget with hget | rfl
        · exact .ref hget hr h1
        · simp [Ty.refs] at hr
      have mism : (∀ m, typify E (m + 1) v id = .err .typeMismatch) →
          Blames E id v .typeMismatch := fun h => .here h
      rw [htyp]
      cases t with
      | primitive p =>
        intro e he
        cases typifyPrim_errs p e he
        exact mism fun m => by rw [htyp]; exact he
      | unicodeChar =>
        intro e he
        cases typifyUnicode_errs e he
        exact mism fun m => by rw [htyp]; exact he
      | enum vs =>
        intro e he
        have hf : E.find id = some (.enum vs) := by simpa [Ty.UNIT] using hget
        rcases typifyEnum_errs e he with rfl | ⟨rfl, h⟩
        · exact mism fun m => by rw [htyp]; exact he
        · exact .here ⟨vs, hf, h⟩
      | array i len =>
        intro e he
        have hf : E.find id = some (.array i len) := by simpa [Ty.UNIT] using hget
        rcases typifyArray_errs e he with rfl | ⟨rfl, h⟩
        · exact mism fun m => by rw [htyp]; exact he
        · exact .here ⟨_, hf, h⟩
      | union vs =>
        have hf : E.find id = some (.union vs) := by simpa [Ty.UNIT] using hget
        simp only [typifyTy] at htyp ⊢
        unfold typifyUnion at htyp ⊢
        split
        · rename_i tag content
          split
          · rename_i r hr
            refine (hrec r ?_ content (.content (.refl _))).map
            cases tag with
            | name n => exact unionTyByName_mem hr
            | ord t => exact unionTyByTag_mem hr
          · rename_i hr
            refine .err (.here ⟨vs, tag, content, hf, rfl, ?_⟩)
            cases tag with
            | name n => exact .name (unionTyByName_none hr)
            | ord t => exact .ord (unionTyByTag_none hr)
        · split
          · exact .ok _
          · rename_i ho
            exact .err (mism fun m => by rw [htyp]; simp only [if_neg ho])
        · rename_i a b
          split
          · rename_i ho
            refine (Errs.expect _).bind fun r hr => ?_
            have hr' : Ty.unionTyByTag vs 1 = some r := by
              cases hx : Ty.unionTyByTag vs 1 with
              | none => rw [hx] at hr; cases hr
              | some r' => rw [hx] at hr; cases hr; rfl
            split
            · exact .ok _
            · rename_i hn
              split
              · exact (hrec r (unionTyByTag_mem hr') b (.tuple (v := b) (by simp) (.refl _))).map
              · rename_i hs
                refine .err (.here ⟨vs, a, b, hf, ho, rfl, ?_, ?_⟩)
                · rintro rfl
                  exact hs (by simp [someStr, Val.eqv])
                · by_cases ha : a = .str Ty.noneName.bytes
                  · refine Or.inr fun hb => hn ?_
                    subst ha hb
                    simp [noneStr, Val.eqv]
                  · exact Or.inl ha
          · rename_i ho
            exact .err (mism fun m => by rw [htyp]; simp only [if_neg ho])
        · split
          · refine (Errs.expect _).bind fun r hr => ?_
            have hr' : Ty.unionTyByTag vs 1 = some r := by
              cases hx : Ty.unionTyByTag vs 1 with
              | none => rw [hx] at hr; cases hr
              | some r' => rw [hx] at hr; cases hr; rfl
            exact (hrec r (unionTyByTag_mem hr') v (.refl _)).map
          · rename_i h1 h2 h3 ho
            refine .err (mism fun m => ?_)
            rw [htyp]
            split
            · exact absurd rfl (h1 _ _)
            · exact absurd rfl h2
            · exact absurd rfl (h3 _ _)
            · rw [if_neg ho]
      | tuple ids =>
        have hf : E.find id = some (.tuple ids) := by simpa [Ty.UNIT] using hget
        have hnew : (∀ m, typify E (m + 1) v id = typifyTuple.newtype (typify E m) ids v) →
            Errs (Blames E id v) (typifyTuple.newtype (typify E n) ids v) := by
          intro hm
          rcases ids with _ | ⟨r, _ | ⟨r', ids⟩⟩
          · exact .err (mism hm)
          · exact (hrec r (by simp [Ty.refs]) v (.refl _)).map
          · exact .err (mism hm)
        simp only [typifyTy] at htyp ⊢
        unfold typifyTuple at htyp ⊢
        split
        · split
          · exact .ok _
          · rename_i hs
            simp only [if_neg hs] at htyp
            exact hnew htyp
        · rename_i l
          split
          · exact .err (.here (Or.inl ⟨ids, l, hf, rfl, by assumption⟩))
          · exact (typifyZip_errs fun w hw r hr => hrec r hr w (.tuple hw (.refl _))).map
        · rename_i l
          exact (typifyZip_errs fun w hw r hr => hrec r hr w (.list hw (.refl _))).map
        · rename_i h1 h2 h3
          refine hnew fun m => ?_
          rw [htyp]
          split
          · exact absurd rfl (h1 _)
          · exact absurd rfl (h2 _)
          · exact absurd rfl (h3 _)
          · rfl
      | struct req =>
        have hf : E.find id = some (.struct req) := by simpa [Ty.UNIT] using hget
        simp only [typifyTy] at htyp ⊢
        unfold typifyStruct at htyp ⊢
        split
        · rename_i fs
          split
          · exact .err (.here (Or.inr ⟨req, fs, hf, rfl, by assumption⟩))
          · refine (typifyFields_errs (fun f hf r hr => hrec r hr f.2 (.field (n := f.1) hf (.refl _)))
              fun f hm hx => .here ⟨req, hf, hx, f.2, hm⟩).map
        · rename_i fs
          refine (typifyMapFields_errs (fun f hf r hr => hrec r hr f.2 (.value (k := f.1) hf (.refl _)))
            (fun n v hm hx => .here ⟨req, hf, hx, v, hm⟩)
            (fun s v hm hx => .here ⟨req, fs, s, v, hf, rfl, hm, hx⟩)
            fun k v hm hx => .here ⟨req, fs, k, v, hf, rfl, hm, hx⟩).map
        · rename_i h1 h2
          refine .err (mism fun m => ?_)
          rw [htyp]
          split
          · exact absurd rfl (h1 _)
          · exact absurd rfl (h2 _)
          · rfl
      | list i sz =>
        have hf : E.find id = some (.list i sz) := by simpa [Ty.UNIT] using hget
        simp only [typifyTy] at htyp ⊢
        unfold typifyList at htyp ⊢
        split
        · rename_i s
          split
          · exact .err (.here ⟨_, hf, .list (.str s) (Sizing.check_false (by assumption))⟩)
          · rename_i h1
            split
            · exact .ok _
            · rename_i h2
              split
              · exact .ok _
              · rename_i h3
                split
                · exact .ok _
                · rename_i h4
                  exact .err (mism fun m => by
                    rw [htyp]; simp only [if_neg h1, if_neg h2, if_neg h3, if_neg h4])
        · rename_i b
          split
          · exact .err (.here ⟨_, hf, .list (.bytes b) (Sizing.check_false (by assumption))⟩)
          · rename_i h1
            split
            · exact .ok _
            · rename_i h2
              exact .err (mism fun m => by rw [htyp]; simp only [if_neg h1, if_neg h2])
        · rename_i l
          split
          · exact .err (.here ⟨_, hf, .list (.list l) (Sizing.check_false (by assumption))⟩)
          · exact (outMap_errs fun w hw => hrec i (by simp [Ty.refs]) w (.list hw (.refl _))).map
        · rename_i h1 h2 h3
          refine .err (mism fun m => ?_)
          rw [htyp]
          split
          · exact absurd rfl (h1 _)
          · exact absurd rfl (h2 _)
          · exact absurd rfl (h3 _)
          · rfl
      | set i sz =>
        have hf : E.find id = some (.set i sz) := by simpa [Ty.UNIT] using hget
        simp only [typifyTy] at htyp ⊢
        unfold typifySet at htyp ⊢
        split
        · rename_i l
          split
          · exact .err (.here ⟨_, hf, .set (.set l) (Sizing.check_false (by assumption))⟩)
          · refine (typifySetItems_errs (seen := []) (by simp)
              (fun w hw => hrec i (by simp [Ty.refs]) w (.set hw (.refl _))) ?_).map
            rintro a y c x' y' hs ⟨x, hx, hxx⟩ hy he
            obtain ⟨a₁, b, rfl⟩ := List.append_of_mem hx
            exact .here ⟨i, sz, l, hf, rfl, a₁, x, b, y, c, n, x', y', by simpa using hs, hxx, hy, he⟩
        · rename_i h1
          refine .err (mism fun m => ?_)
          rw [htyp]
          split
          · exact absurd rfl (h1 _)
          · rfl
      | map k i sz =>
        have hf : E.find id = some (.map k i sz) := by simpa [Ty.UNIT] using hget
        simp only [typifyTy] at htyp ⊢
        unfold typifyMap at htyp ⊢
        split
        · rename_i l
          split
          · exact .err (.here ⟨_, hf, .map (.map l) (Sizing.check_false (by assumption))⟩)
          · refine (typifyMapItems_errs (seen := []) (by simp)
              (fun w hw => ⟨hrec k (by simp [Ty.refs]) w.1 (.key (v := w.2) hw (.refl _)),
                hrec i (by simp [Ty.refs]) w.2 (.value (k := w.1) hw (.refl _))⟩) ?_).map
            rintro a y c x' y' hs ⟨x, hx, hxx⟩ hy he
            obtain ⟨a₁, b, rfl⟩ := List.append_of_mem hx
            refine .here ⟨k, i, sz, l, hf, rfl, a₁.map Prod.fst, x.1, b.map Prod.fst, y.1,
              c.map Prod.fst, n, x', y', ?_, hxx, hy, he⟩
            rw [show l = _ from hs]
            simp
        · rename_i h1
          refine .err (mism fun m => ?_)
          rw [htyp]
          split
          · exact absurd rfl (h1 _)
          · rfl

/-! ## Writing -/

section
variable {P : EErr → Prop} {rec : Val → SemId → Out EErr Bytes}

theorem writeItems_errs {id : SemId} {l : List Val} (h : ∀ v ∈ l, Errs P (rec v id)) :
    Errs P (writeItems rec id l) := by
  induction l with
  | nil => exact .ok _
  | cons v l ih =>
    exact (h v (by simp)).bind fun _ _ => (ih fun w hw => h w (by simp [hw])).bind fun _ _ => .ok _

theorem writePairs_errs {kid id : SemId} {l : List (Val × Val)}
    (h : ∀ p ∈ l, Errs P (rec p.1 kid) ∧ Errs P (rec p.2 id)) : Errs P (writePairs rec kid id l) := by
  induction l with
  | nil => exact .ok _
  | cons p l ih =>
    have := h p (by simp)
    exact this.1.bind fun _ _ => this.2.bind fun _ _ =>
      (ih fun w hw => h w (by simp [hw])).bind fun _ _ => .ok _

theorem writeZip_errs {l : List Val} {ids : List SemId}
    (h : ∀ v ∈ l, ∀ r ∈ ids, Errs P (rec v r)) : Errs P (writeZip rec l ids) := by
  induction l generalizing ids with
  | nil => unfold writeZip; exact .ok _
  | cons v l ih =>
    cases ids with
    | nil => unfold writeZip; exact .ok _
    | cons i ids =>
      exact (h v (by simp) i (by simp)).bind fun _ _ =>
        (ih fun w hw r hr => h w (by simp [hw]) r (by simp [hr])).bind fun _ _ => .ok _

theorem imGet_none {V : Type} {fs : List (Name × V)} {n : Name} (h : imGet fs n = none) :
    ∀ f ∈ fs, f.1 ≠ n := by
  intro f hf he
  obtain ⟨v, hv, -⟩ := imGet_some (n := n) (fs := fs) (List.mem_map.mpr ⟨f, hf, he⟩)
  rw [hv] at h
  cases h

theorem imGet_in {V : Type} {fs : List (Name × V)} {n : Name} {v : V} (h : imGet fs n = some v) :
    (n, v) ∈ fs := by
  by_cases hn : n ∈ fs.map Prod.fst
  · obtain ⟨w, hw, hm⟩ := imGet_some hn
    rw [hw] at h
    cases h
    exact hm
  · exfalso
    induction fs with
    | nil => cases h
    | cons f fs ih =>
      simp only [List.map_cons, List.mem_cons, not_or] at hn
      have : (f.1 == n) = false := by simpa using fun h => hn.1 h.symm
      simp only [imGet, List.find?_cons, this] at h
      exact ih h hn.2

theorem writeFields_errs {fs : List (Name × Val)} {req : List (Name × SemId)}
    (h : ∀ f ∈ fs, ∀ r ∈ req.map Prod.snd, Errs P (rec f.2 r))
    (hx : ∀ g ∈ req, (∀ f ∈ fs, f.1 ≠ g.1) → P (.missingField g.1)) :
    Errs P (writeFields rec fs req) := by
  induction req with
  | nil => exact .ok _
  | cons g req ih =>
    obtain ⟨n, id⟩ := g
    unfold writeFields
    cases hg : imGet fs n with
    | none => exact .err (hx (n, id) (by simp) (imGet_none hg))
    | some v =>
      refine (h (n, v) (imGet_in hg) id (by simp)).bind fun _ _ => ?_
      exact (ih (fun f hf r hr => h f hf r (List.mem_cons_of_mem _ hr))
        fun g hg => hx g (List.mem_cons_of_mem _ hg)).bind fun _ _ => .ok _

end

theorem writePrim_errs {P : EErr → Prop} (E : Env) (p : Byte) (v : Val) :
    Errs P (writePrim E p v) := by
  have hl : ∀ a b c, Errs P (leSlice a b c) := by
    intro a b c
    unfold leSlice
    split
    · exact .ok _
    · exact .panic
  unfold writePrim
  split
  · exact (Errs.debugAssert _ _).bind fun _ _ => .ok _
  · exact hl _ _ _
  · exact hl _ _ _
  · exact hl _ _ _
  · exact hl _ _ _
  · exact .panic

theorem write_errs (E : Env) (n : Nat) (v : Val) (id : SemId) :
    Errs (WriteBlames E id v) (write E n v id) := by
  induction n generalizing v id with
  | zero => exact .diverge
  | succ n ih =>
    cases ht : E.typeOf id with
    | none => simp only [write, ht]; exact .panic
    | some t =>
      have hget : E.find id = some t ∨ t = Ty.UNIT := by
        unfold Env.typeOf at ht
        split at ht
        · cases ht; exact Or.inr rfl
        · exact Or.inl ht
      have hrec : ∀ r ∈ t.refs, ∀ w, Occurs v w → Errs (WriteBlames E id v) (write E n w r) := by
        intro r hr w ho e he
        obtain ⟨j, u, h1, h2, h3⟩ := ih w r e he
        refine ⟨j, u, ?_, ho.trans h2, h3⟩
        rcases hget with hget | rfl
        · exact .ref hget hr h1
        · simp [Ty.refs] at hr
      simp only [write, ht]
      cases t with
      | primitive p => exact writePrim_errs E p v
      | unicodeChar =>
        simp only [writeTy]
        split
        · exact (Errs.debugAssert _ _).bind fun _ _ => .ok _
        · exact .panic
      | enum vs =>
        simp only [writeTy]
        unfold writeEnum
        split
        · exact (Errs.debugAssert _ _).bind fun _ _ => .ok _
        · exact (Errs.expect _).bind fun _ _ => .ok _
        · exact .panic
      | union vs =>
        simp only [writeTy]
        unfold writeUnion
        split
        · rename_i t w
          cases hx : Ty.unionTyByTag vs t with
          | none => exact .panic
          | some r =>
            exact (hrec r (unionTyByTag_mem hx) w (.content (.refl _))).bind fun _ _ => .ok _
        · rename_i m w
          cases hx : Ty.unionByName vs m with
          | none => exact .panic
          | some p =>
            exact (hrec p.2 (List.mem_map_of_mem (List.mem_of_find?_eq_some hx)) w
              (.content (.refl _))).bind fun _ _ => .ok _
        · exact .panic
      | tuple ids =>
        simp only [writeTy]
        unfold writeTuple
        split
        · exact (Errs.debugAssert _ _).bind fun _ _ =>
            writeZip_errs fun w hw r hr => hrec r hr w (.tuple hw (.refl _))
        · split
          · split
            · split
              · exact (Errs.debugAssert _ _).bind fun _ _ => .ok _
              · exact .diverge
              · exact .panic
            · exact .panic
            · exact .diverge
            · exact .panic
          · exact .panic
        · exact .panic
      | struct req =>
        have hf : E.find id = some (.struct req) := by simpa [Ty.UNIT] using hget
        simp only [writeTy]
        unfold writeStruct
        split
        · rename_i fs
          exact (Errs.debugAssert _ _).bind fun _ _ =>
            writeFields_errs (fun f hf r hr => hrec r hr f.2 (.field (n := f.1) hf (.refl _)))
              fun g hg hx => ⟨id, .struct fs, .here id, .refl _, req, fs, hf, rfl, ⟨g.2, hg⟩, hx⟩
        · exact .panic
      | array i len =>
        simp only [writeTy]
        unfold writeArray
        split
        · exact (Errs.debugAssert _ _).bind fun _ _ => .ok _
        · exact (Errs.debugAssert _ _).bind fun _ _ => .ok _
        · exact .panic
      | list i sz =>
        simp only [writeTy]
        unfold writeList
        split
        · exact .ok _
        · exact .ok _
        · exact (writeItems_errs fun w hw =>
            hrec i (by simp [Ty.refs]) w (.list hw (.refl _))).bind fun _ _ => .ok _
        · exact .panic
      | set i sz =>
        simp only [writeTy]
        unfold writeSet
        split
        · exact (writeItems_errs fun w hw =>
            hrec i (by simp [Ty.refs]) w (.set hw (.refl _))).bind fun _ _ => .ok _
        · exact .panic
      | map k i sz =>
        simp only [writeTy]
        unfold writeMap
        split
        · exact (writePairs_errs fun w hw =>
            ⟨hrec k (by simp [Ty.refs]) w.1 (.key (v := w.2) hw (.refl _)),
              hrec i (by simp [Ty.refs]) w.2 (.value (k := w.1) hw (.refl _))⟩).bind fun _ _ => .ok _
        · exact .panic

end Verif
