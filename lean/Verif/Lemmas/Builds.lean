import Verif.Model.Programs
import Verif.Spec.Builds
import Verif.Lemmas.Extract

/-! # Lemmas on builds with and without checks -/

namespace Verif

theorem Below.rfl {ε α : Type} {o : Out ε α} : Below o o := .inr (Eq.refl _)

theorem Below.panic {ε α : Type} {o : Out ε α} : Below .panic o := .inl (Eq.refl _)

theorem Below.of_eq {ε α : Type} {o p : Out ε α} (h : o = p) : Below o p := .inr h

theorem Below.bind {ε α β : Type} {o p : Out ε α} {f g : α → Out ε β} (h : Below o p) (hf : ∀ a, Below (f a) (g a)) :
    Below (o >>= f) (p >>= g) := by
  rcases h with rfl | rfl
  · exact .panic
  · cases o with
    | ok a => exact hf a
    | err e => exact .rfl
    | panic => exact .rfl
    | diverge => exact .rfl

theorem Below.mapErr {ε ε' α : Type} {o p : Out ε α} (f : ε → ε') (h : Below o p) : Below (o.mapErr f) (p.mapErr f) := by
  rcases h with rfl | rfl
  · exact .panic
  · exact .rfl

theorem Below.unwrap {ε α : Type} {o p : Out ε α} (h : Below o p) : Below o.unwrap p.unwrap := by
  rcases h with rfl | rfl
  · exact .panic
  · exact .rfl

theorem Below.debugAssert {ε : Type} (b : Bool) : Below (Out.debugAssert (ε := ε) true b) (Out.debugAssert false b) := by
  cases b
  · exact .panic
  · exact .rfl

theorem Below.ite {ε α : Type} {c : Prop} [d : Decidable c] [d' : Decidable c] {a a' b b' : Out ε α} (h : Below a a')
    (h' : Below b b') : Below (@_root_.ite _ c d a b) (@_root_.ite _ c d' a' b') := by
  by_cases hc : c
  · rw [if_pos hc, if_pos hc]; exact h
  · rw [if_neg hc, if_neg hc]; exact h'

theorem Below.asserted {ε α : Type} (b : Bool) {o p : Out ε α} (h : Below o p) :
    Below (do Out.debugAssert true b; o) (do Out.debugAssert false b; p) :=
  .bind (.debugAssert b) fun _ => h

/-! ## Values -/

theorem Env.checked_find (E : Env) (id : SemId) : E.checked.find id = E.find id := rfl

theorem Env.unchecked_find (E : Env) (id : SemId) : E.unchecked.find id = E.find id := rfl

theorem Env.checked_typeOf (E : Env) (id : SemId) : E.checked.typeOf id = E.typeOf id := rfl

theorem Env.unchecked_typeOf (E : Env) (id : SemId) : E.unchecked.typeOf id = E.typeOf id := rfl

theorem below_rstringSizing (E : Env) (ids : List SemId) : Below (E.checked.rstringSizing ids) (E.unchecked.rstringSizing ids) := by
  unfold Env.rstringSizing
  refine .bind .rfl fun r => ?_
  rw [E.checked_find, E.unchecked_find]
  cases E.find r with
  | none => exact .rfl
  | some t =>
    cases t with
    | list r sz =>
      show Below (if true && _ then _ else _) (if false && _ then _ else _)
      by_cases h : (sz.min == -1 || sz.max == -1) = true
      · rw [h]; exact .panic
      · rw [Bool.not_eq_true] at h; rw [h]; exact .rfl
    | _ => exact .rfl

theorem below_isRString (E : Env) (ids : List SemId) : Below (E.checked.isRString ids) (E.unchecked.isRString ids) := by
  unfold Env.isRString
  split
  · exact .rfl
  · refine .bind .rfl fun first => .bind (below_rstringSizing E ids) fun r => ?_
    exact .rfl

theorem below_writeZip {r r' : Val → SemId → Out EErr Bytes} (h : ∀ v id, Below (r v id) (r' v id)) :
    ∀ l ids, Below (writeZip r l ids) (writeZip r' l ids)
  | v :: l, id :: ids => .bind (h v id) fun _ => .bind (below_writeZip h l ids) fun _ => .rfl
  | [], _ => by unfold writeZip; exact .rfl
  | _ :: _, [] => by unfold writeZip; exact .rfl

theorem below_writeItems {r r' : Val → SemId → Out EErr Bytes} (h : ∀ v id, Below (r v id) (r' v id)) (id : SemId) :
    ∀ l, Below (writeItems r id l) (writeItems r' id l)
  | [] => .rfl
  | v :: l => .bind (h v id) fun _ => .bind (below_writeItems h id l) fun _ => .rfl

theorem below_writePairs {r r' : Val → SemId → Out EErr Bytes} (h : ∀ v id, Below (r v id) (r' v id)) (kid id : SemId) :
    ∀ l, Below (writePairs r kid id l) (writePairs r' kid id l)
  | [] => .rfl
  | (k, v) :: l => .bind (h k kid) fun _ => .bind (h v id) fun _ => .bind (below_writePairs h kid id l) fun _ => .rfl

theorem below_writeFields {r r' : Val → SemId → Out EErr Bytes} (h : ∀ v id, Below (r v id) (r' v id)) (vals : List (Name × Val)) :
    ∀ req, Below (writeFields r vals req) (writeFields r' vals req)
  | [] => .rfl
  | (n, id) :: req => by
    unfold writeFields
    cases imGet vals n with
    | none => exact .rfl
    | some v => exact .bind (h v id) fun _ => .bind (below_writeFields h vals req) fun _ => .rfl

theorem below_writeTuple {r r' : Val → SemId → Out EErr Bytes} (h : ∀ v id, Below (r v id) (r' v id)) (E : Env)
    (ids : List SemId) (v : Val) : Below (writeTuple r E.checked ids v) (writeTuple r' E.unchecked ids v) := by
  cases v with
  | tuple l => exact .asserted _ (below_writeZip h l ids)
  | str s =>
    unfold writeTuple
    by_cases ha : isAscii s = true
    · simp only [ha, if_true]
      rcases below_isRString E ids with hp | hp
      · rw [hp]; exact .panic
      · rw [hp]
        cases E.unchecked.isRString ids with
        | ok b =>
          cases b with
          | false => exact .rfl
          | true =>
            rcases below_rstringSizing E ids with hq | hq
            · rw [hq]; exact .panic
            · rw [hq]
              cases E.unchecked.rstringSizing ids with
              | ok o =>
                cases o with
                | none => exact .rfl
                | some p => exact .asserted _ .rfl
              | _ => exact .rfl
        | _ => exact .rfl
    · rw [Bool.not_eq_true] at ha
      simp only [ha]; exact .rfl
  | _ => exact .rfl

theorem below_writeTy {r r' : Val → SemId → Out EErr Bytes} (h : ∀ v id, Below (r v id) (r' v id)) (E : Env) (v : Val)
    (t : Ty SemId) : Below (writeTy r E.checked v t) (writeTy r' E.unchecked v t) := by
  cases t with
  | primitive p => cases v with
    | unit => exact .asserted _ .rfl
    | num n => cases n <;> exact .rfl
    | _ => exact .rfl
  | unicodeChar => cases v with
    | str s => exact .asserted _ .rfl
    | _ => exact .rfl
  | enum vs => cases v with
    | enum t => cases t with
      | ord t => exact .asserted _ .rfl
      | name n => exact .rfl
    | _ => exact .rfl
  | union vs => cases v with
    | union t v => cases t with
      | ord t => exact .bind .rfl fun id => .bind (h v id) fun _ => .rfl
      | name n => exact .bind .rfl fun p => .bind (h v p.2) fun _ => .rfl
    | _ => exact .rfl
  | tuple ids => exact below_writeTuple h E ids v
  | struct req => cases v with
    | struct fs => exact .asserted _ (below_writeFields h fs req)
    | _ => exact .rfl
  | array id len => cases v with
    | str s => exact .asserted _ .rfl
    | bytes s => exact .asserted _ .rfl
    | _ => exact .rfl
  | list id sz => cases v with
    | list l => exact .bind (below_writeItems h id l) fun _ => .rfl
    | _ => exact .rfl
  | set id sz => cases v with
    | set l => exact .bind (below_writeItems h id l) fun _ => .rfl
    | _ => exact .rfl
  | map kid id sz => cases v with
    | map l => exact .bind (below_writePairs h kid id l) fun _ => .rfl
    | _ => exact .rfl

theorem below_write (E : Env) : ∀ fuel v id, Below (write E.checked fuel v id) (write E.unchecked fuel v id)
  | 0, _, _ => .rfl
  | fuel + 1, v, id => by
    unfold write
    rw [E.checked_typeOf, E.unchecked_typeOf]
    cases E.typeOf id with
    | none => exact .rfl
    | some t => exact below_writeTy (below_write E fuel) E v t

theorem below_readItems {r r' : SemId → Bytes → Out DErr (RdPair Val)} (h : ∀ id bs, Below (r id bs) (r' id bs)) (id : SemId) :
    ∀ n bs, Below (readItems r id n bs) (readItems r' id n bs)
  | 0, _ => .rfl
  | n + 1, bs => .bind (h id bs) fun p => .bind (below_readItems h id n p.2) fun _ => .rfl

theorem below_readPairs {r r' : SemId → Bytes → Out DErr (RdPair Val)} (h : ∀ id bs, Below (r id bs) (r' id bs))
    (kid id : SemId) : ∀ n bs, Below (readPairs r kid id n bs) (readPairs r' kid id n bs)
  | 0, _ => .rfl
  | n + 1, bs => .bind (h kid bs) fun p => .bind (h id p.2) fun q => .bind (below_readPairs h kid id n q.2) fun _ => .rfl

theorem below_readTuple {r r' : SemId → Bytes → Out DErr (RdPair Val)} (h : ∀ id bs, Below (r id bs) (r' id bs)) :
    ∀ ids bs, Below (readTuple r ids bs) (readTuple r' ids bs)
  | [], _ => .rfl
  | id :: ids, bs => .bind (h id bs) fun p => .bind (below_readTuple h ids p.2) fun _ => .rfl

theorem below_readFields {r r' : SemId → Bytes → Out DErr (RdPair Val)} (h : ∀ id bs, Below (r id bs) (r' id bs)) :
    ∀ req acc bs, Below (readFields r req acc bs) (readFields r' req acc bs)
  | [], _, _ => .rfl
  | (_, id) :: req, _, bs => .bind (h id bs) fun p => below_readFields h req _ p.2

theorem below_readTy {r r' : SemId → Bytes → Out DErr (RdPair Val)} (h : ∀ id bs, Below (r id bs) (r' id bs)) (E : Env)
    (spec : SemId) (t : Ty SemId) (bs : Bytes) : Below (readTy r E.checked spec t bs) (readTy r' E.unchecked spec t bs) := by
  cases t with
  | list id sz =>
    unfold readTy readList
    dsimp only
    rw [E.checked_find, E.unchecked_find]
    cases E.find id with
    | none => exact .rfl
    | some t =>
      exact .ite .rfl (.ite .rfl (.ite .rfl
        (.bind (.bind .rfl fun p => .bind .rfl fun _ => below_readItems h id p.1 p.2) fun _ => .rfl)))
  | tuple ids =>
    refine .bind (.mapErr _ (below_isRString E ids)) fun b => ?_
    cases b with
    | true => exact .bind (.mapErr _ (below_rstringSizing E ids)) fun o => .rfl
    | false => exact .bind (below_readTuple h ids bs) fun _ => .rfl
  | union vs =>
    refine .bind .rfl fun p => ?_
    dsimp only
    cases Ty.unionByTag vs (BitVec.ofNat 8 p.1) with
    | none => exact .rfl
    | some q => exact .bind (h q.2 p.2) fun _ => .rfl
  | struct req => exact .bind (below_readFields h req [] bs) fun _ => .rfl
  | array id len =>
    exact .ite .rfl (.bind (below_readItems h id _ bs) fun _ => .rfl)
  | set id sz => exact .bind (.bind .rfl fun p => .bind .rfl fun _ => below_readItems h id p.1 p.2) fun _ => .rfl
  | map kid id sz => exact .bind (.bind .rfl fun p => .bind .rfl fun _ => below_readPairs h kid id p.1 p.2) fun _ => .rfl
  | _ => exact .rfl

theorem below_read (E : Env) : ∀ fuel id bs, Below (read E.checked fuel id bs) (read E.unchecked fuel id bs)
  | 0, _, _ => .rfl
  | fuel + 1, id, bs => by
    unfold read
    rw [E.checked_find, E.unchecked_find]
    cases E.find id with
    | none => exact .rfl
    | some t => exact below_readTy (below_read E fuel) E id t bs

/-! ## Types -/

theorem below_incPos (pos : Byte) : Below (Ty.incPos true pos) (Ty.incPos false pos) := by
  unfold Ty.incPos
  cases h : pos == 255
  · exact .rfl
  · exact .panic

theorem below_iterNext {Ref : Type} (s : Ty.IterState Ref) : Below (Ty.iterNext true s) (Ty.iterNext false s) :=
  .bind (below_incPos s.pos) fun _ => .rfl

theorem below_intoIterNext {Ref : Type} (s : Ty.IterState Ref) : Below (Ty.intoIterNext true s) (Ty.intoIterNext false s) :=
  .bind (below_incPos s.pos) fun _ => .rfl

theorem below_collectIter {σ α : Type} {f g : σ → Out Unit (Option α × σ)} (h : ∀ s, Below (f s) (g s)) :
    ∀ fuel s, Below (Ty.collectIter f fuel s) (Ty.collectIter g fuel s)
  | 0, _ => .rfl
  | fuel + 1, s => by
    refine .bind (h s) fun p => ?_
    obtain ⟨o, s'⟩ := p
    cases o with
    | none => exact .rfl
    | some a => exact .bind (below_collectIter h fuel s') fun _ => .rfl

theorem below_iterRefs {Ref ε : Type} (t : Ty Ref) : Below (t.iterRefs (ε := ε) true) (t.iterRefs false) := by
  unfold Ty.iterRefs
  rcases below_collectIter below_iterNext 257 t.iterStart with h | h
  · rw [h]; exact .panic
  · rw [h]; exact .rfl

theorem below_extractLoop (sys : TypeSystem) : ∀ fuel ids found ex,
    Below (extractLoop true sys fuel ids found ex) (extractLoop false sys fuel ids found ex)
  | 0, _, _, _ => .rfl
  | _ + 1, [], _, _ => .rfl
  | fuel + 1, id :: ids, found, ex => by
    unfold extractLoop
    cases sys.get id with
    | none => exact .rfl
    | some ty => exact .bind (below_iterRefs ty) fun _ => below_extractLoop sys fuel _ _ _

theorem below_innerErrors (types : OMap SemId SymTy) : ∀ l, Below (innerErrors true types l) (innerErrors false types l)
  | [] => .rfl
  | (_, info) :: rest => .bind (below_iterRefs info.ty) fun _ => .bind (below_innerErrors types rest) fun _ => .rfl

theorem below_finalize (b : SystemBuilder) : Below (b.finalize true) (b.finalize false) :=
  .bind (below_innerErrors b.types b.types) fun _ => .rfl

theorem below_assembleSys (H : Hash) (ls : List TypeLib) : Below (assembleSys H true ls) (assembleSys H false ls) :=
  .bind .rfl fun b => below_finalize b

/-! ## Libraries -/

theorem below_compileLoop (H : Hash) (names : List Name) : ∀ fuel st,
    Below (compileLoop H true names fuel st) (compileLoop H false names fuel st)
  | 0, _ => .rfl
  | fuel + 1, _ => .ite .rfl (.bind .rfl fun p => .asserted _ (below_compileLoop H names fuel p.1))

theorem below_symCompile (H : Hash) (fuel : Nat) (s : SymbolicLib) : Below (s.compile H true fuel) (s.compile H false fuel) :=
  .bind (below_compileLoop H _ fuel _) fun _ => .rfl

theorem below_libCompile (H : Hash) (fuel : Nat) (b : LibBuilder) : Below (b.compile H true fuel) (b.compile H false fuel) :=
  .bind .rfl fun s => below_symCompile H fuel s

theorem below_decrement (x : BitVec 64) : Below (decrement true x) (decrement false x) := by
  unfold decrement
  by_cases h : x = 0
  · subst h; exact .panic
  · simp only [h, decide_false, Bool.and_false]; exact .rfl

theorem below_compileType (H : Hash) (lib : Name) (name : Option Name) {f g : Transpiler → Out Unit Transpiler}
    (h : ∀ b, Below (f b) (g b)) (b : Transpiler) : Below (compileType H lib name f b) (compileType H lib name g b) := by
  have hc : Below (f b >>= fun b => Out.expect b.last >>= fun r => pure (r, b))
      (g b >>= fun b => Out.expect b.last >>= fun r => pure (r, b)) := .bind (h b) fun _ => .rfl
  unfold compileType
  cases name with
  | none => exact hc
  | some n => exact .ite hc (.ite (.bind hc fun _ => .rfl) (.ite .rfl hc))

mutual
theorem below_encode (H : Hash) : ∀ (t : RTy) (b : Transpiler), Below (t.encode H true b) (t.encode H false b)
  | .prim _, _ => .rfl
  | .unicode _, _ => .rfl
  | .rstring c c1 sz, b => by
    unfold RTy.encode
    exact .bind (below_encode H c1 b) fun b => .bind .rfl fun _ => .bind (below_encode H c b) fun b => .bind .rfl fun _ =>
      .bind (below_decrement _) fun _ => .bind (below_decrement _) fun _ => .rfl
  | .array t _, b => by unfold RTy.encode; exact .bind (below_encode H t b) fun _ => .rfl
  | .list t _, b => by unfold RTy.encode; exact .bind (below_encode H t b) fun _ => .rfl
  | .set t _, b => by unfold RTy.encode; exact .bind (below_encode H t b) fun _ => .rfl
  | .map k t _, b => by
    unfold RTy.encode
    exact .bind (below_encode H k b) fun b => .bind .rfl fun _ => .bind (below_encode H t b) fun _ => .rfl
  | .record _ _ _ fs, b => by unfold RTy.encode; exact .bind (below_encodeFields H fs b) fun _ => .rfl
  | .enum _ _ _, _ => .rfl
  | .union _ _ vs n, b => by
    unfold RTy.encode
    exact .bind (below_encodeVariants H vs b) fun _ => .bind .rfl fun _ => .bind .rfl fun b =>
      .bind (below_encodeNth H vs n b) fun _ => .rfl
termination_by structural t => t
theorem below_encodeFields (H : Hash) : ∀ (l : List (Option Name × RTy)) (b : Transpiler),
    Below (RTy.encodeFields H true l b) (RTy.encodeFields H false l b)
  | [], _ => .rfl
  | f :: fs, b => by
    unfold RTy.encodeFields
    exact .bind (below_encodeField H f b) fun p => .bind (below_encodeFields H fs p.2) fun _ => .rfl
termination_by structural l => l
theorem below_encodeField (H : Hash) : ∀ (f : Option Name × RTy) (b : Transpiler),
    Below (RTy.encodeField H true f b) (RTy.encodeField H false f b)
  | (_, t), b => by
    unfold RTy.encodeField
    exact .bind (below_compileType H _ _ (below_encode H t) b) fun _ => .rfl
termination_by structural p => p
theorem below_encodeVariants (H : Hash) : ∀ (l : List (Variant × RTy)) (b : Transpiler),
    Below (RTy.encodeVariants H true l b) (RTy.encodeVariants H false l b)
  | [], _ => .rfl
  | v :: vs, b => by
    unfold RTy.encodeVariants
    exact .bind (below_encodeVariant H v b) fun p => .bind (below_encodeVariants H vs p.2) fun _ => .rfl
termination_by structural l => l
theorem below_encodeVariant (H : Hash) : ∀ (v : Variant × RTy) (b : Transpiler),
    Below (RTy.encodeVariant H true v b) (RTy.encodeVariant H false v b)
  | (_, t), b => by
    unfold RTy.encodeVariant
    exact .bind (below_encode H t b) fun _ => .rfl
termination_by structural p => p
theorem below_encodeNth (H : Hash) : ∀ (l : List (Variant × RTy)) (n : Nat) (b : Transpiler),
    Below (RTy.encodeNth H true l n b) (RTy.encodeNth H false l n b)
  | [], _, _ => .rfl
  | v :: _, 0, b => by
    unfold RTy.encodeNth
    exact .bind (below_encodeVariant H v b) fun _ => .rfl
  | _ :: vs, n + 1, b => by
    unfold RTy.encodeNth
    exact below_encodeNth H vs n b
termination_by structural l => l
end

theorem below_transpile (H : Hash) : ∀ ts b, Below (Transpiler.transpile H true ts b) (Transpiler.transpile H false ts b)
  | [], _ => .rfl
  | t :: ts, b => .bind (below_encode H t b) fun b => below_transpile H ts b

theorem below_crate (H : Hash) (fuel : Nat) (c : Crate) (libs : List TypeLib) :
    Below (c.build H true fuel libs) (c.build H false fuel libs) :=
  .bind (.mapErr _ (below_transpile H _ _)) fun _ => below_libCompile H fuel _

theorem below_buildAll (H : Hash) (fuel : Nat) : ∀ cs libs, Below (buildAll H true fuel cs libs) (buildAll H false fuel cs libs)
  | [], _ => .rfl
  | c :: cs, libs => .bind (below_crate H fuel c libs) fun _ => below_buildAll H fuel cs _

/-! ## Layouts -/

theorem below_incr {n : Nat} (k : BitVec n) : Below (incr true k) (incr false k) := by
  unfold incr
  cases h : k == BitVec.allOnes n
  · exact .rfl
  · exact .panic

theorem below_visit (H : Hash) (S : SymbolicSys) (fqn : Option TypeFqn) (ty : Ty SemId) :
    Below (visit H true S fqn ty) (visit H false S fqn ty) := by
  unfold visit
  refine .ite .rfl (.ite (.bind (below_iterNext _) fun _ => .rfl) ?_)
  split
  · split
    · exact .ite (.bind (below_incr _) fun _ => .bind (below_incr _) fun _ => .bind (below_iterNext _) fun p =>
        .bind (below_iterNext p.2) fun _ => .rfl) .rfl
    · exact .rfl
  · exact .rfl
  · exact .rfl

theorem below_enter (H : Hash) (S : SymbolicSys) (s : TreeIter) (ty : Ty SemId) :
    Below (s.enter H true S ty) (s.enter H false S ty) := by
  exact .bind (below_visit H S _ ty) fun v => .ite (.bind (below_incr _) fun _ => .rfl) .rfl

theorem below_next (H : Hash) (S : SymbolicSys) : ∀ fuel s, Below (TreeIter.next H true S fuel s) (TreeIter.next H false S fuel s)
  | 0, _ => .rfl
  | fuel + 1, s => by
    unfold TreeIter.next
    cases s.ty with
    | some ty =>
      refine .bind (below_enter H S s ty) fun p => ?_
      obtain ⟨o, s'⟩ := p
      cases o with
      | some i => exact .rfl
      | none => exact below_next H S fuel s'
    | none =>
      cases s.path with
      | nil => exact .rfl
      | cons q path =>
        refine .bind (below_iterNext q.2) fun p => ?_
        obtain ⟨o, it⟩ := p
        cases o with
        | none => exact below_next H S fuel _
        | some i => exact below_next H S fuel _

theorem below_collect (H : Hash) (S : SymbolicSys) : ∀ fuel room s,
    Below (TreeIter.collect H true S fuel room s) (TreeIter.collect H false S fuel room s)
  | 0, _, _ => .rfl
  | fuel + 1, room, s => by
    refine .bind (below_next H S _ s) fun p => ?_
    obtain ⟨o, s'⟩ := p
    cases o with
    | none => exact .rfl
    | some i =>
      cases room with
      | zero => exact .rfl
      | succ room => exact .bind (below_collect H S fuel room s') fun _ => .rfl

theorem below_layout (H : Hash) (fuel : Nat) (S : SymbolicSys) (id : SemId) :
    Below (layout H true fuel S id) (layout H false fuel S id) :=
  .bind .rfl fun s => below_collect H S fuel _ s

theorem below_toVesperLoop (H : Hash) (maxAttrs maxContent : Nat) : ∀ items root path,
    Below (toVesperLoop H true maxAttrs maxContent items root path) (toVesperLoop H false maxAttrs maxContent items root path)
  | [], _, _ => .rfl
  | _ :: items, _, _ => .bind .rfl fun _ => .ite (.asserted _ (below_toVesperLoop H maxAttrs maxContent items _ _))
      (.ite .rfl (.bind .rfl fun _ => .bind .rfl fun _ => below_toVesperLoop H maxAttrs maxContent items _ _))

/-! ## Where both agree -/

theorem rstringSizing_agree (E : Env) {ids : List SemId}
    (h : ∀ a b c sz, ids = [a, b] → E.find b = some (.list c sz) → sz.min ≠ -1 ∧ sz.max ≠ -1) (hl : ids.length = 2) :
    E.checked.rstringSizing ids = E.unchecked.rstringSizing ids := by
  match ids, hl with
  | [a, b], _ =>
    unfold Env.rstringSizing
    show (match E.checked.find b with | none => _ | some (.list rest sz) => _ | some _ => _) =
      (match E.unchecked.find b with | none => _ | some (.list rest sz) => _ | some _ => _)
    rw [E.checked_find, E.unchecked_find]
    cases hb : E.find b with
    | none => rfl
    | some t =>
      cases t with
      | list c sz =>
        obtain ⟨h1, h2⟩ := h a b c sz rfl hb
        have h1' : (sz.min == -1) = false := by simpa using h1
        have h2' : (sz.max == -1) = false := by simpa using h2
        simp only [h1', h2', Bool.or_self, Bool.and_false]
      | _ => rfl

theorem isRString_agree (E : Env) {ids : List SemId}
    (h : ∀ a b c sz, ids = [a, b] → E.find b = some (.list c sz) → sz.min ≠ -1 ∧ sz.max ≠ -1) :
    E.checked.isRString ids = E.unchecked.isRString ids := by
  unfold Env.isRString
  by_cases hl : ids.length = 2
  · rw [rstringSizing_agree E h hl]
    rfl
  · simp only [ne_eq, hl, not_false_eq_true, if_true]

theorem isRString_len {E : Env} {ids : List SemId} (h : E.isRString ids = .ok true) : ids.length = 2 := by
  by_cases hl : ids.length = 2
  · exact hl
  · unfold Env.isRString at h
    simp [hl] at h

theorem readTy_agree (E : Env) (r : SemId → Bytes → Out DErr (RdPair Val)) (spec : SemId) (t : Ty SemId) (bs : Bytes)
    (h : ∀ a b c sz, t = .tuple [a, b] → E.find b = some (.list c sz) → sz.min ≠ -1 ∧ sz.max ≠ -1) :
    readTy r E.checked spec t bs = readTy r E.unchecked spec t bs := by
  cases t with
  | tuple ids =>
    have h' : ∀ a b c sz, ids = [a, b] → E.find b = some (.list c sz) → sz.min ≠ -1 ∧ sz.max ≠ -1 := by
      intro a b c sz hi; subst hi; exact h a b c sz rfl
    unfold readTy readTupleTy
    dsimp only
    rw [isRString_agree E h']
    cases hr : E.unchecked.isRString ids with
    | ok b =>
      cases b with
      | true => rw [rstringSizing_agree E h' (isRString_len hr)]
      | false => rfl
    | _ => rfl
  | _ => rfl

theorem read_agree (E : Env)
    (h : ∀ id a b c sz, E.find id = some (.tuple [a, b]) → E.find b = some (.list c sz) → sz.min ≠ -1 ∧ sz.max ≠ -1) :
    ∀ fuel, read E.checked fuel = read E.unchecked fuel
  | 0 => rfl
  | fuel + 1 => by
    funext id bs
    unfold read
    rw [E.checked_find, E.unchecked_find, read_agree E h fuel]
    cases hi : E.find id with
    | none => rfl
    | some t => exact readTy_agree E _ id t bs fun a b c sz ht => h id a b c sz (ht ▸ hi)

theorem extractLoop_agree (sys : TypeSystem) (h : ∀ id t, sys.get id = some t → t.WF ∧ t.refs.length < 255) :
    ∀ fuel ids found ex, extractLoop true sys fuel ids found ex = extractLoop false sys fuel ids found ex
  | 0, _, _, _ => rfl
  | _ + 1, [], _, _ => rfl
  | fuel + 1, id :: ids, found, ex => by
    unfold extractLoop
    cases ht : sys.get id with
    | none => rfl
    | some ty =>
      obtain ⟨hw, hl⟩ := h id ty ht
      simp only [Ty.iterRefs_eq hw (fun _ => hl), Out.bind_ok]
      exact extractLoop_agree sys h fuel _ _ _

theorem innerErrors_agree (types : OMap SemId SymTy) : ∀ l : OMap SemId SymTy,
    (∀ p ∈ l, p.2.ty.WF ∧ p.2.ty.refs.length < 255) → innerErrors true types l = innerErrors false types l
  | [], _ => rfl
  | (id, info) :: rest, h => by
    obtain ⟨hw, hl⟩ := h (id, info) (by simp)
    unfold innerErrors
    rw [Ty.iterRefs_eq hw (fun _ => hl), Ty.iterRefs_eq hw (fun _ => hl),
      innerErrors_agree types rest fun p hp => h p (by simp [hp])]

theorem compileStep_lost {H : Hash} {name : Name} {st st' : CompileState} (h : compileStep H name st = .ok (st', false)) :
    st' = st := by
  unfold compileStep at h
  split at h
  · cases h; rfl
  · split at h <;> cases h
    rfl

theorem compilePass_lost {H : Hash} : ∀ {names : List Name} {st st' : CompileState},
    compilePass H names st = .ok (st', false) → st' = st
  | [], _, _, h => by cases h; rfl
  | name :: names, st, st', h => by
    unfold compilePass at h
    obtain ⟨⟨s, f⟩, h1, h⟩ := Out.bind_eq_ok.mp h
    obtain ⟨⟨s', f'⟩, h2, h⟩ := Out.bind_eq_ok.mp h
    have hp : s' = st' ∧ (f || f') = false := by simpa using h
    obtain ⟨rfl, hf⟩ := hp
    rw [Bool.or_eq_false_iff] at hf
    obtain ⟨rfl, rfl⟩ := hf
    rw [compilePass_lost h2, compileStep_lost h1]

theorem compileLoop_stuck {H : Hash} {names : List Name} {st st' : CompileState} (ho : st.oldTypes.isEmpty = false)
    (h : compilePass H names st = .ok (st', false)) : ∀ fuel, compileLoop H false names fuel st = .diverge
  | 0 => by unfold compileLoop; rw [ho]; rfl
  | fuel + 1 => by
    unfold compileLoop
    rw [ho, h]
    have := compilePass_lost h
    subst this
    exact compileLoop_stuck ho h fuel

/-- With checks, the loop does the same, or it panics where without it goes on forever. -/
theorem compileLoop_agree (H : Hash) (names : List Name) : ∀ fuel st,
    compileLoop H false names fuel st ≠ .diverge → compileLoop H true names fuel st = compileLoop H false names fuel st
  | 0, _, _ => rfl
  | fuel + 1, st, h => by
    cases ho : st.oldTypes.isEmpty with
    | true => unfold compileLoop; rw [ho]; rfl
    | false =>
      cases hp : compilePass H names st with
      | ok p =>
        obtain ⟨st', f⟩ := p
        cases f with
        | false => exact absurd (compileLoop_stuck ho hp (fuel + 1)) h
        | true =>
          unfold compileLoop at h ⊢
          rw [ho, hp] at h
          rw [ho, hp]
          exact compileLoop_agree H names fuel st' h
      | _ => unfold compileLoop; rw [ho, hp]; rfl

end Verif
