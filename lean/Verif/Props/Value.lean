import Verif.Spec.Path
import Verif.Spec.Example
import Verif.Lemmas.Read
import Verif.Lemmas.RoundTrip

/-!
# Properties C31, C41, C43, C48, C56: reading to the end, value paths, wrappers, restricted strings
-/

namespace Verif

/-! ## C43 -/

theorem hasMatch_iff (k : KeyStep) (v : Val) : k.hasMatch v = true ↔ Denotes k v := by
  constructor
  · intro h
    unfold KeyStep.hasMatch at h
    split at h
    · exact .tag (by simpa using Eq.symm (of_decide_eq_true (by simpa using h)))
    · exact .num (by simpa using h)
    · rw [eq_of_beq h]
      exact .blob
    · rw [eq_of_beq h]
      exact .string
    · cases h
  · intro h
    cases h with
    | tag h => simp [KeyStep.hasMatch, h]
    | num h => simp [KeyStep.hasMatch, h]
    | blob => simp [KeyStep.hasMatch]
    | string => simp [KeyStep.hasMatch]

/-- **C43.** A key step selects a map entry exactly when the key denotes the same number, bytes or
string as the step; no two different steps match the same key; and the entry returned by a path
access is one whose key is denoted by the step. -/
theorem C43_key_step_exact :
    (∀ k v, KeyStep.hasMatch k v = true ↔ Denotes k v) ∧
    (∀ k k' v, Denotes k v → Denotes k' v → k = k') ∧
    (∀ l k w, Val.atPath (.map l) [.key k] = .ok w → ∃ key, (key, w) ∈ l ∧ Denotes k key) := by
  refine ⟨hasMatch_iff, ?_, ?_⟩
  · rintro k k' v (h | h | _ | _) h'
    · cases h' with | tag h2 => congr 1; exact BitVec.eq_of_toNat_eq (h.trans h2.symm)
    · cases h' with | num h2 => congr 1; exact BitVec.eq_of_toNat_eq (h.trans h2.symm)
    · cases h'; rfl
    · cases h'; rfl
  · intro l k w h
    simp only [Val.atPath, Val.atStep, Out.ofOption] at h
    split at h
    · rename_i a ha
      cases h
      obtain ⟨⟨key, w'⟩, hp, rfl⟩ := Option.map_eq_some_iff.mp ha
      exact ⟨key, List.mem_of_find?_eq_some hp, 
        (hasMatch_iff _ _).mp (List.find?_some (p := fun p : Val × Val => k.hasMatch p.1) hp)⟩
    · cases h

example : Denotes (.number 7) (.enum (.ord 7)) ∧ Denotes (.number 7) (.num (.uint 7)) ∧
    Val.atPath (.map [(.num (.uint 3), .unit), (.num (.uint 7), .str [65])]) [.key (.number 7)] =
      .ok (.str [65]) := ⟨.tag rfl, .num rfl, rfl⟩

/-! ## C41 -/

theorem getElem?_split {α : Type} {l : List α} {i : Nat} {w : α} :
    l[i]? = some w ↔ ∃ pre post, l = pre ++ w :: post ∧ pre.length = i := by
  constructor
  · intro h
    obtain ⟨hl, rfl⟩ := List.getElem?_eq_some_iff.mp h
    refine ⟨l.take i, l.drop (i + 1), ?_, by simp; omega⟩
    rw [List.getElem_cons_drop, List.take_append_drop]
  · rintro ⟨pre, post, rfl, rfl⟩
    simp

theorem find?_split {α : Type} {l : List α} {p : α → Bool} {w : α} :
    l.find? p = some w ↔ p w = true ∧ ∃ pre post, l = pre ++ w :: post ∧ ∀ a ∈ pre, ¬ p a = true := by
  rw [List.find?_eq_some_iff_append]
  simp

theorem ofOption_eq_ok {ε α : Type} {e : ε} {o : Option α} {a : α} :
    Out.ofOption e o = .ok a ↔ o = some a := by
  cases o <;> simp [Out.ofOption]

theorem atStep_iff (v : Val) (s : VStep) (w : Val) : v.atStep s = .ok w ↔ StepsTo v s w := by
  constructor
  · intro h
    unfold Val.atStep at h
    split at h
    · rw [ofOption_eq_ok] at h
      obtain ⟨pre, post, h1, h2⟩ := getElem?_split.mp h
      exact .tuple h1 h2
    · rw [ofOption_eq_ok, imGet] at h
      obtain ⟨⟨n', w'⟩, hp, rfl⟩ := Option.map_eq_some_iff.mp h
      obtain ⟨h0, pre, post, h1, h2⟩ := find?_split.mp hp
      have h0 := eq_of_beq h0
      dsimp only at h0
      subst h0
      exact .struct h1 (by simpa using h2)
    · rw [ofOption_eq_ok] at h
      obtain ⟨pre, post, h1, h2⟩ := getElem?_split.mp h
      exact .list h1 h2
    · rw [ofOption_eq_ok] at h
      obtain ⟨pre, post, h1, h2⟩ := getElem?_split.mp h
      exact .set h1 h2
    · rw [ofOption_eq_ok] at h
      obtain ⟨⟨k', w'⟩, hp, rfl⟩ := Option.map_eq_some_iff.mp h
      obtain ⟨h0, pre, post, h1, h2⟩ := find?_split.mp hp
      exact .map h1 ((hasMatch_iff _ _).mp h0) fun p hp hd => h2 p hp ((hasMatch_iff _ _).mpr hd)
    · cases h
  · intro h
    cases h with
    | tuple h1 h2 => exact ofOption_eq_ok.mpr (getElem?_split.mpr ⟨_, _, h1, h2⟩)
    | struct h1 h2 =>
      refine ofOption_eq_ok.mpr ?_
      unfold imGet
      exact Option.map_eq_some_iff.mpr
        ⟨_, find?_split.mpr ⟨by simp, _, _, h1, by simpa using h2⟩, rfl⟩
    | list h1 h2 => exact ofOption_eq_ok.mpr (getElem?_split.mpr ⟨_, _, h1, h2⟩)
    | set h1 h2 => exact ofOption_eq_ok.mpr (getElem?_split.mpr ⟨_, _, h1, h2⟩)
    | map h1 h2 h3 =>
      refine ofOption_eq_ok.mpr ?_
      exact Option.map_eq_some_iff.mpr ⟨_, find?_split.mpr ⟨(hasMatch_iff _ _).mpr h2, _, _, h1,
        fun p hp hd => h3 p hp ((hasMatch_iff _ _).mp hd)⟩, rfl⟩

theorem atStep_total (v : Val) (s : VStep) : (∃ w, v.atStep s = .ok w) ∨ ∃ e, v.atStep s = .err e := by
  have key : ∀ (e : PathErr) (o : Option Val), (∃ w, Out.ofOption e o = .ok w) ∨
      ∃ e', Out.ofOption e o = .err e' := by
    intro e o
    cases o
    · exact Or.inr ⟨_, rfl⟩
    · exact Or.inl ⟨_, rfl⟩
  unfold Val.atStep
  split
  any_goals exact key _ _
  exact Or.inr ⟨_, rfl⟩

/-- **C41 is violated**: all steps after the first are ignored, whatever they are; so a path that
leads nowhere is accepted, and a path that leads somewhere gives another value. -/
theorem C41_path_violated :
    (∀ v s rest, Val.atPath v (s :: rest) = Val.atPath v [s]) ∧
    (∃ v p w, Val.atPath v p = .ok w ∧ ∀ u, ¬ PathTo v p u) ∧
    (∃ v p u w, PathTo v p u ∧ Val.atPath v p = .ok w ∧ u ≠ w) := by
  refine ⟨fun _ _ _ => rfl, ?_, ?_⟩
  · refine ⟨.tuple [.unit], [.unnamedField 0, .index 5], .unit, rfl, fun u h => ?_⟩
    cases h with
    | cons h1 h2 =>
      cases h2 with
      | cons h3 _ =>
        have h1' := (atStep_iff _ _ _).mpr h1
        have : Val.atStep (.tuple [.unit]) (.unnamedField 0) = .ok .unit := rfl
        rw [this] at h1'
        cases h1'
        cases h3
  · refine ⟨.tuple [.tuple [.unit]], [.unnamedField 0, .unnamedField 0], .unit, .tuple [.unit],
      ?_, rfl, by simp⟩
    exact .cons ((atStep_iff _ _ _).mp rfl) (.cons ((atStep_iff _ _ _).mp rfl) .nil)

/-- **C41, what holds**: the access returns exactly the value reached by the first step of the path (the value itself
for the empty path), an error when there is none, and it never panics. So for paths of at most one step it returns what
the path leads to. Missing: the other steps of longer paths (`C41_path_violated`). -/
theorem C41_path_partial (v : Val) (p : List VStep) :
    (∀ w, v.atPath p = .ok w ↔ PathTo v (p.take 1) w) ∧
    ((∀ w, ¬ PathTo v (p.take 1) w) ↔ ∃ e, v.atPath p = .err e) ∧
    (p.length ≤ 1 → ∀ w, v.atPath p = .ok w ↔ PathTo v p w) := by
  have key : ∀ w, v.atPath p = .ok w ↔ PathTo v (p.take 1) w := by
    intro w
    match p with
    | [] =>
      constructor
      · intro h; cases h; exact .nil
      · intro h; cases h; rfl
    | s :: _ =>
      refine (atStep_iff v s w).trans ⟨fun h => .cons h .nil, fun h => ?_⟩
      cases h with
      | cons h1 h2 => cases h2; exact h1
  refine ⟨key, ?_, fun h w => by rw [key w, List.take_of_length_le h]⟩
  have ht : (∃ w, v.atPath p = .ok w) ∨ ∃ e, v.atPath p = .err e := by
    cases p with
    | nil => exact Or.inl ⟨_, rfl⟩
    | cons s r => exact atStep_total v s
  constructor
  · intro h
    rcases ht with ⟨w, hw⟩ | h'
    · exact absurd ((key w).mp hw) (h w)
    · exact h'
  · rintro ⟨e, he⟩ w hw
    rw [(key w).mpr hw] at he
    cases he

example : PathTo (.struct [(n!"a", .unit), (n!"b", .str [66])]) [.namedField n!"b"] (.str [66]) :=
  .cons (.struct (pre := [(n!"a", .unit)]) (post := []) rfl (by decide)) .nil

/-! ## C48 -/

/-- **C48.** `skip_wrapper` removes all and only one-field tuples and is idempotent; `unwrap_option`
of `none` is absent and of `some v` is `v`, through any number of one-field tuples. -/
theorem C48_unwrap (v : Val) :
    (∃ n, v = wrapN n v.skipWrapper) ∧ ¬ IsWrapper v.skipWrapper ∧
    v.skipWrapper.skipWrapper = v.skipWrapper ∧
    (∀ n, (wrapN n v).skipWrapper = v.skipWrapper) ∧
    (∀ n, (wrapN n .none).unwrapOption = .ok none) ∧
    (∀ n, (wrapN n (.some v)).unwrapOption = .ok (some v)) := by
  have hw : ∀ n (v : Val), (wrapN n v).skipWrapper = v.skipWrapper := by
    intro n v
    induction n with
    | zero => rfl
    | succ n ih => simpa [wrapN, Val.skipWrapper] using ih
  have h2 : ∀ v : Val, ¬ IsWrapper v.skipWrapper := by
    intro v
    induction v using Val.skipWrapper.induct with
    | case1 v ih => simpa [Val.skipWrapper] using ih
    | case2 v h =>
      rintro ⟨w, hw⟩
      rw [Val.skipWrapper.eq_def] at hw
      split at hw
      · exact h _ rfl
      · exact h _ hw
  have hid : ∀ v : Val, ¬ IsWrapper v → v.skipWrapper = v := by
    intro v h
    rw [Val.skipWrapper.eq_def]
    split
    · exact absurd ⟨_, rfl⟩ h
    · rfl
  refine ⟨?_, h2 v, hid _ (h2 v), fun n => hw n v, fun n => ?_, fun n => ?_⟩
  · induction v using Val.skipWrapper.induct with
    | case1 v ih =>
      obtain ⟨n, hn⟩ := ih
      exact ⟨n + 1, by simp only [wrapN, Val.skipWrapper]; rw [← hn]⟩
    | case2 v h =>
      refine ⟨0, (hid v ?_).symm⟩
      rintro ⟨w, hw⟩
      exact h w hw
  · unfold Val.unwrapOption
    rw [hw, hid .none (by rintro ⟨w, hw⟩; cases hw)]
    simp [Val.none, Val.eqv]
  · unfold Val.unwrapOption
    rw [hw, hid (.some v) (by rintro ⟨w, hw⟩; cases hw)]
    have : Ty.someName ≠ Ty.noneName := by decide
    simp [Val.some, this]

example : (wrapN 3 (.some (wrapN 2 .unit))).unwrapOption = .ok (some (.tuple [.tuple [.unit]])) :=
  (C48_unwrap (wrapN 2 .unit)).2.2.2.2.2 3

/-! ## C31 -/

/-- **C31.** A value is returned only if reading it consumes the whole input; then every extension
of the input is rejected because of the bytes left over, and every proper prefix because of the end
of input. -/
theorem C31_deserialize_whole (E : Env) (fuel : Nat) (id : SemId) (bs : Bytes) (v : Val)
    (h : deserialize E fuel id bs = .ok v) :
    read E fuel id bs = .ok (v, []) ∧
    (∀ ext, ext ≠ [] → deserialize E fuel id (bs ++ ext) = .err .notEntirelyConsumed) ∧
    (∀ p q, bs = p ++ q → q ≠ [] → deserialize E fuel id p = .err .io) := by
  unfold deserialize at h
  obtain ⟨⟨v', rest⟩, h1, h2⟩ := Out.bind_eq_ok.mp h
  dsimp only at h2
  split at h2
  · cases h2
  · rename_i hr
    cases h2
    have : rest = [] := by simpa using hr
    subst this
    obtain ⟨c, hc, hext, hpre⟩ := read_local E fuel id bs v [] h1
    rw [List.append_nil] at hc
    subst hc
    refine ⟨h1, fun ext he => ?_, fun p q hpq hq => ?_⟩
    · unfold deserialize
      rw [hext ext]
      simp [he]
    · unfold deserialize
      rw [hpre p q hpq hq]
      rfl

example (debug : Bool) : deserialize (exE debug) 5 (Id32.rep 14) exBytes = .ok exVal := by
  cases debug <;> rfl

/-! ## C56 -/

/-- **C56 is violated** for tails whose maximal size is the largest 64-bit number: computing the
limit panics in builds with overflow checks and gives 0 otherwise. -/
theorem C56_rstring_sizing_violated :
    ∃ E : Env, ∀ debug, ∃ ids A C sz, ({ E with debug := debug } : Env).RString ids A C sz ∧
      ({ E with debug := debug } : Env).rstringSizing ids =
        (if debug then .panic else .ok (some (Id32.rep 3, ⟨1, 0⟩))) := by
  let V : List Variant := [⟨n!"a", 65⟩]
  let sys : TypeSystem := [(Id32.rep 1, .enum V), (Id32.rep 2, .list (Id32.rep 3) ⟨0, -1⟩),
    (Id32.rep 3, .enum V)]
  have hV : CharVariants V := by
    intro v hv
    have : v = ⟨n!"a", 65⟩ := by simpa [V] using hv
    subst this
    decide
  refine ⟨⟨fun _ => Id32.rep 0, sys, true, fun _ => 1, 1⟩, fun debug =>
    ⟨[Id32.rep 1, Id32.rep 2], V, V, ⟨0, -1⟩, ⟨_, _, Id32.rep 3, rfl, rfl, hV, rfl, rfl, hV⟩, ?_⟩⟩
  cases debug <;> rfl

/-- **C56, what holds** (tail sizes below the largest 64-bit number): the limits of a restricted
string are those of its tail plus one, without overflow; both serialisation and deserialisation use
a length prefix for that limit and the length of the whole string. Missing: the largest size
(`C56_rstring_sizing_violated`). -/
theorem C56_rstring_sizing_partial (E : Env) (ids : List SemId) (A C : List Variant) (sz : Sizing)
    (h : E.RString ids A C sz) (hmin : sz.min.toNat < 2 ^ 64 - 1) (hmax : sz.max.toNat < 2 ^ 64 - 1) :
    (∃ c lim, E.rstringSizing ids = .ok (some (c, lim)) ∧ lim.min.toNat = sz.min.toNat + 1 ∧
      lim.max.toNat = sz.max.toNat + 1) ∧
    (∀ fuel id s, E.typeOf id = some (.tuple ids) → isAscii s = true →
      s.length ≤ sz.max.toNat + 1 →
      write E (fuel + 1) (.str s) id = .ok (le (prefixWidth (sz.max.toNat + 1)) s.length ++ s)) ∧
    (∀ fuel id s rest, E.find id = some (.tuple ids) → isAscii s = true →
      s.length ≤ sz.max.toNat + 1 →
      read E (fuel + 1) id (le (prefixWidth (sz.max.toNat + 1)) s.length ++ s ++ rest) =
        .ok (.str s, rest)) := by
  obtain ⟨h1, c, h2⟩ := isRString_true h (Or.inr ⟨hmin, hmax⟩)
  have hm : (sz.max + 1).toNat = sz.max.toNat + 1 := succ_toNat hmax
  have hw : ({ min := sz.min + 1, max := sz.max + 1 } : Sizing).byteSize =
      prefixWidth (sz.max.toNat + 1) := by
    rw [byteSize_eq]
    simp only [hm]
  refine ⟨⟨c, _, h2, succ_toNat hmin, hm⟩, fun fuel id s ht ha hl => ?_,
    fun fuel id s rest hf ha hl => ?_⟩
  · simp only [write, ht, writeTy, writeTuple, ha, h1, h2, if_true, hw]
    rw [debugAssert_true (by simp only [hm]; exact decide_eq_true hl)]
    rfl
  · simp only [read, hf, readTy, readTupleTy, h1, h2, ofUnknown, Out.mapErr, Out.bind_ok, if_true,
      hw]
    exact readAscii_append (lt_prefixWidth hl (by omega)) ha rest

example (debug : Bool) :
    (exE debug).RString [Id32.rep 3, Id32.rep 4] exAlphabet exAlphabet ⟨0, 10⟩ ∧
    write (exE debug) 1 (.str [65, 66]) (Id32.rep 5) = .ok [2, 65, 66] ∧
    read (exE debug) 1 (Id32.rep 5) [2, 65, 66, 9] = .ok (.str [65, 66], [9]) := by
  have hA : CharVariants exAlphabet := by unfold CharVariants; decide
  cases debug <;> exact ⟨⟨_, _, _, rfl, rfl, hA, rfl, rfl, hA⟩, rfl, rfl⟩

end Verif
