import Verif.Lemmas.Fresh
import Verif.Props.Stl

/-!
# Hash collisions do not excuse everything

Many theorems allow for hash collisions among the texts hashed for the types at hand. Here is a hash for which there are
none, for the crates used as examples and for the crates behind `Std` and `StrictTypes`; for this hash the theorems hold
without the excuse.
-/

namespace Verif
open Stl

/-- No collisions among the texts of crates: the texts of types are among `L`, and libraries get different ids. -/
theorem noCrateCollision {H : Hash} {debug : Bool} {fuel : Nat} {cs : List Crate} (L : List Bytes)
    (hd : ∀ q, Describe cs q → q.text H ∈ L) (hb : ∀ x ∈ basicTexts, x ∈ L)
    (hf : fresh 0 (L.map fun x => (taggedHash H SEM_ID_TAG x).bits) = true)
    (hl : (List.range (cs.length + 1)).all (fun k => (buildAll H debug fuel (cs.take k) []).get?.all fun ls =>
      decide (ls.map (TypeLib.id H)).Nodup) = true) :
    ¬ CrateCollision H debug fuel cs := by
  rintro (h | ⟨pre, post, ls, e, hls, l, hlm, m, hmm, hne, h⟩)
  · refine noCollision _ ?_ hf h
    rintro x (⟨q, hq, rfl⟩ | hx)
    · exact hd q hq
    · exact hb x hx
  · have := List.all_eq_true.mp hl pre.length (by simp [e]; omega)
    rw [e, List.take_left' rfl, hls] at this
    exact hne (congrArg _ (nodup_map_inj (by simpa only [Out.get?, Option.all_some, decide_eq_true_eq] using this) hlm hmm h))

/-! ### The crate with words and pairs -/

theorem wNodes_described {q : RTy} (h : Describe [wCrate] q) : q ∈ wNodes := by
  obtain ⟨c, hc, s, hs, hq⟩ := h
  have hcl : ClosedNodes wNodes := by simp [ClosedNodes, wNodes, wWord, wLetter, wPair, RTy.parts]
  have hd : ∀ q ∈ wNodes, ∀ p ∈ q.described, p ∈ wNodes := by
    simp [wNodes, wWord, wLetter, wPair, RTy.described]
  have ht : ∀ c ∈ [wCrate], ∀ t ∈ c.types, t ∈ wNodes := by simp [wCrate, wNodes]
  exact hd s (hcl.mentions (ht c hc) hs) q hq

theorem wCrate_apart (debug : Bool) : ¬ CrateCollision polyHash debug 65535 [wCrate] :=
  noCrateCollision (wNodes.map (RTy.text polyHash) ++ basicTexts)
    (fun _ hq => List.mem_append_left _ (List.mem_map.mpr ⟨_, wNodes_described hq, rfl⟩))
    (fun _ hx => List.mem_append_right _ hx) (by decide +kernel) (by cases debug <;> decide +kernel)

/-- For this hash C77 and C78 are violated without further conditions. -/
example (debug : Bool) : ∃ ls S, buildAll polyHash debug 65535 [wCrate] [] = .ok ls ∧ assembleSys polyHash debug ls = .ok S := by
  obtain ⟨ls, S, h1, h2, -⟩ := wCrate_system (wCrate_apart debug)
  exact ⟨ls, S, h1, h2⟩

/-! ### The example crates and libraries -/

theorem exCrates_apart (debug : Bool) : ¬ CrateCollision polyHash debug 65535 exCrates := by
  refine noCrateCollision (exNodes.map (RTy.text polyHash) ++ [[0, 64], [1]])
    (fun _ hq => List.mem_append_left _ (List.mem_map.mpr ⟨_, exNodes_described hq, rfl⟩)) (by decide +kernel)
    (by decide +kernel) (by cases debug <;> decide +kernel)

/-- For this hash the libraries of these crates can be built, without further conditions. -/
example : ∃ ls, buildAll polyHash true 65535 exCrates [] = .ok ls := by
  obtain ⟨ls, h, -⟩ := (C66_crates_build polyHash true exCrates exCrates_buildable 65535 (by decide)).resolve_right
    (exCrates_apart true)
  exact ⟨ls, h⟩

/-- So does C84: the value of a picture comes back. -/
example : ∃ ls, buildAll polyHash true 65535 exCrates [] = .ok ls ∧ ∀ ms, ls.Perm ms →
    ∃ S, assembleSys polyHash true ms = .ok S ∧ ∀ E : Env, E.H = polyHash → E.sys = S.types → E.Usual →
      S.Describes E (sizeOf exPicture) b!"Own.Picture" (exPicture.semId polyHash) exPictureVal exPictureBytes := by
  obtain ⟨ls, h, hs⟩ := (C84_whole_partial polyHash true exCrates exCrates_buildable exCrates_outlines
    exCrates_regular ⟨exNodes, by decide, fun _ => exNodes_described⟩ 65535 (by decide)).resolve_right (exCrates_apart true)
  refine ⟨ls, h, fun ms hp => ?_⟩
  obtain ⟨S, hS, hE⟩ := hs ms hp
  exact ⟨S, hS, fun E h1 h2 h3 => (hE E h1 h2 h3 ⟨n!"Own", [exPicture, exPoint]⟩ (by simp [exCrates]) exPicture n!"Picture"
    ⟨⟨exPicture, by simp, .refl _⟩, rfl, rfl⟩).2 _ _ exPicture_fits.1 exPicture_tidy.1 _ (Nat.le_refl _)⟩

/-- No collisions among the texts of the named types of the example libraries. -/
example : ¬ Collision toyHash (· ∈ [exBase, exTop].flatMap TypeLib.namedTexts) :=
  noCollision _ (fun _ h => h) (by decide +kernel)

/-! ### The crate with ambiguous tuples -/

theorem ambCrate_apart (debug : Bool) : ¬ CrateCollision polyHash debug 65535 [ambCrate] := by
  refine noCrateCollision ((ambNodes.eraseIdx 2).map (RTy.text polyHash) ++ [[0, 0], [0, 64], [1]]) ?_ (by decide +kernel)
    (by decide +kernel) (by cases debug <;> decide +kernel)
  have : ∀ q ∈ ambNodes, q.text polyHash ∈ (ambNodes.eraseIdx 2).map (RTy.text polyHash) ++ [[0, 0], [0, 64], [1]] := by
    decide +kernel
  exact fun q hq => this q (ambCrate_described hq)

/-! ### The libraries `Std` and `StrictTypes` -/

/-- The texts of types of these crates, and of the built-in types. -/
def stlTexts : List Bytes := describedNodes.map (RTy.text polyHash) ++ [[1]]

theorem stl_basic : ∀ x ∈ basicTexts, x ∈ stlTexts := by decide +kernel

theorem stl_texts {x : Bytes} (h : crateTexts polyHash crates x) : x ∈ stlTexts := by
  rcases h with ⟨q, hq, rfl⟩ | hx
  · exact List.mem_append_left _ (List.mem_map.mpr ⟨_, described_nodes hq, rfl⟩)
  · exact stl_basic x hx

theorem stl_apart (debug : Bool) : ¬ CrateCollision polyHash debug 65535 crates :=
  noCrateCollision stlTexts (fun q hq => stl_texts (.inl ⟨q, hq, rfl⟩)) stl_basic (by decide +kernel)
    (by cases debug <;> decide +kernel)

/-- Bits of ids of types of these crates are not found two bytes further on in another id. -/
theorem stl_noOverlap : ¬ Overlap polyHash (crateTexts polyHash crates) := by
  have h : (stlTexts.map fun x => (taggedHash polyHash SEM_ID_TAG x).bits).all
      (fun n => maskOf (stlTexts.map fun x =>
        fromLe (((taggedHash polyHash SEM_ID_TAG x).bytes.drop 2).take 3) % 2 ^ 20) >>> n % 2 == 0) = true := by
    decide +kernel
  rintro ⟨x, y, hx, hy, e⟩
  have h := List.all_eq_true.mp h _ (List.mem_map.mpr ⟨y, stl_texts hy, rfl⟩)
  rw [shiftRight_testBit, maskOf_mem] at h
  · cases h
  · refine List.mem_map.mpr ⟨x, stl_texts hx, ?_⟩
    rw [e, List.take_take]
    rfl

/-- For this hash C83 holds without further conditions. -/
example (debug : Bool) : ∃ ls, buildAll polyHash debug 65535 crates [] = .ok ls ∧ ∀ ms, ls.Perm ms →
    ∃ S, assembleSys polyHash debug ms = .ok S ∧ ∀ E : Env, E.H = polyHash → E.sys = S.types → E.Usual →
      ∀ l : TypeLib, l.WF → l.Cased → ∀ rfuel, sizeOf typeLib ≤ rfuel →
        S.Describes E rfuel b!"StrictTypes.TypeLib" (typeLib.semId polyHash) l.val l.encode := by
  obtain ⟨ls, h, hs⟩ := ((C83_self_description polyHash debug 65535 (by decide)).resolve_right
    (not_or.mpr ⟨stl_apart debug, stl_noOverlap⟩))
  refine ⟨ls, h, fun ms hp => ?_⟩
  obtain ⟨S, hS, hE⟩ := hs ms hp
  exact ⟨S, hS, fun E h1 h2 h3 => (hE E h1 h2 h3).1⟩

end Verif
