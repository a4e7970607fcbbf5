import Verif.Lemmas.StlNodes
import Verif.Props.Apart

/-! # The libraries `Std` and `StrictTypes` can be built -/

namespace Verif.Stl

/-- What is described: all types, and the tail of identifiers. -/
def describedNodes : List RTy := nodes ++ [.list alphaNumLodash ⟨0, 99⟩]

theorem nodes_values : ∀ q ∈ nodes, q.DistinctFields ∧ q.Ordinary ∧ ¬ q.LooksLikeString ∧ q.UpTo64 ∧ ¬ q.BareByte ∧
    ¬ q.ItemArray ∧ q.parts.length < 255 := by decide +kernel

theorem nodes_limits : ∀ c ∈ crates, ∀ q ∈ nodes, q.NodeOk true c.name fun lib => ∃ d ∈ crates, d.name = lib := by
  decide +kernel

theorem nodes_variants : ∀ q ∈ nodes, q.DistinctVariants := by decide +kernel

theorem nodes_shallow : ∀ q ∈ nodes, q.name.isSome = true → (q.sem fun _ => Id32.rep 0).DepthLe 3 := by decide +kernel

theorem nodes_keys : ((nodes.filter fun q => q.name.isSome).map fun q => (q.lib, q.name)).Nodup := by decide +kernel

/-- `strictTypesCrate` mentions types of its own and types of `Std`. -/
theorem nodes_libs : (∀ q ∈ stdTypes, q.lib = stdCrate.name) ∧ ∀ q ∈ nodes.drop stdTypes.length, q.name.isSome = true →
    q.lib = strictTypesCrate.name := by decide +kernel

theorem std_contains {t s : RTy} (ht : t ∈ stdTypes) (hs : t.Contains s) : s = t := by
  cases hs with
  | refl => rfl
  | step hp => rw [std_parts t ht] at hp; cases hp

/-- The libraries can be built. -/
theorem buildable (debug : Bool) : Buildable debug crates := by
  refine buildable_of nodes_closed crates_nodes debug (by decide +kernel) (by decide +kernel) (by decide) (by decide +kernel)
    (by decide +kernel) (fun c hc q hq => ⟨nodes_variants q hq, nodes_limits c hc q hq⟩) nodes_shallow nodes_keys ?_
  intro pre c post e s hs hn
  match pre, e with
  | [], e =>
    cases e
    obtain ⟨t, ht, hts⟩ := hs
    obtain rfl := std_contains ht hts
    exact .inl (nodes_libs.1 _ ht)
  | [d], e =>
    cases e
    have hmem := nodes_closed.mentions (crates_nodes strictTypesCrate (by simp [crates])) hs
    rw [← List.take_append_drop stdTypes.length nodes, List.mem_append] at hmem
    rcases hmem with h | h
    · have h : s ∈ stdTypes := by
        simpa only [nodes, List.append_assoc, List.take_left'] using h
      exact .inr ⟨stdCrate, by simp, ⟨s, h, .refl _⟩, nodes_libs.1 s h⟩
    · refine .inl (nodes_libs.2 s h ?_)
      cases h : s.name with
      | none => exact absurd h hn
      | some => rfl
  | d :: d' :: pre, e => simp [crates] at e

/-! ### Ids -/

/-- A restricted string. -/
def isRString : RTy → Bool
  | .rstring _ _ _ => true
  | _ => false

theorem nodes_strings : nodes.filter isRString =
    [identString alphaSmallLodash, identString alphaLodash, identString alphaCapsLodash] := rfl

theorem identString_described (a : RTy) :
    (identString a).described = [identString a, .list alphaNumLodash ⟨0, 99⟩] := rfl

theorem nodes_described : ∀ q ∈ nodes, ∀ p ∈ q.described, p ∈ describedNodes := by
  intro q hq p hp
  cases h : isRString q with
  | false =>
    suffices p = q from List.mem_append_left _ (this ▸ hq)
    cases q <;> first | simpa [RTy.described] using hp | cases h
  | true =>
    have := List.mem_filter.mpr ⟨hq, h⟩
    rw [nodes_strings] at this
    obtain ⟨a, rfl⟩ : ∃ a, q = identString a := by
      simp only [List.mem_cons, List.not_mem_nil, or_false] at this
      rcases this with rfl | rfl | rfl <;> exact ⟨_, rfl⟩
    rw [identString_described, List.mem_cons, List.mem_singleton] at hp
    rcases hp with rfl | rfl
    · exact List.mem_append_left _ hq
    · simp [describedNodes]

/-- The one pair of texts which are alike up to the place of an id: a tuple of a byte and a named type, and a tuple of a
named type and a number. -/
def offset : List Piece → List Piece → Bool
  | [.byte _, .byte _, .byte _, .id _], [.byte _, .id _, .byte _, .byte _] => true
  | _, _ => false

theorem shift_eq {a b c d : Byte} {F R : Bytes} (h : a :: b :: F = R ++ [c, d]) (hR : R.length = 32) : R.drop 2 = F.take 30 := by
  have := congrArg (fun l => (l.drop 2).take 30) h
  simp only [List.drop_succ_cons, List.drop_zero] at this
  rw [this, List.drop_append_of_le_length (by omega), List.take_append_of_le_length (by simp; omega),
    List.take_of_length_le (by simp; omega)]

theorem offset_overlap {H : Hash} {D : Bytes → Prop} {l m : List Piece} (h : offset l m = true) {x : Bytes} (hl : Fills H D l x)
    (hm : Fills H D m x) : Overlap H D := by
  unfold offset at h
  split at h
  · generalize hx : x = y at hm
    cases hl with | byte hl => cases hl with | byte hl => cases hl with | byte hl => cases hl with | id dl hl => cases hl with
    | nil => cases hm with | byte hm => cases hm with | id dm hm => cases hm with | byte hm => cases hm with | byte hm => cases hm with
    | nil =>
      rw [List.append_nil] at hx
      exact ⟨_, _, dm, dl, shift_eq (List.cons.inj hx).2 (Id32.len _)⟩
  · cases h

theorem nodes_apart : allPairs (fun q q' => apart q.outlined q'.outlined || offset q.outlined q'.outlined ||
    offset q'.outlined q.outlined) describedNodes = true := by decide +kernel

theorem described_of {cs : List Crate} (hn : ∀ c ∈ cs, ∀ t ∈ c.types, t ∈ nodes) {q : RTy} (h : Describe cs q) :
    q ∈ describedNodes := by
  obtain ⟨c, hc, s, hs, hq⟩ := h
  exact nodes_described s (nodes_closed.mentions (hn c hc) hs) q hq

theorem described_nodes {q : RTy} (h : Describe crates q) : q ∈ describedNodes := described_of crates_nodes h

/-- Different types of crates made of these types have different ids. -/
theorem idsApart_of {H : Hash} {cs : List Crate} (hn : ∀ c ∈ cs, ∀ t ∈ c.types, t ∈ nodes)
    (hc : ¬ Collision H (crateTexts H cs)) (ho : ¬ Overlap H (crateTexts H cs)) : IdsApart H cs := by
  intro q q' h h' e
  have hp := nodes_apart
  rw [allPairs_iff] at hp
  rcases pairwise_or_eq (fun a b h => by
    rw [apart_symm, Bool.or_assoc, Bool.or_comm (offset _ _), ← Bool.or_assoc]; exact h) hp q (described_of hn h) q'
    (described_of hn h') with rfl | ha
  · exact q.same_refl
  · exfalso
    have hd : ∀ p, q.Contains p → crateTexts H cs (p.text H) := fun p hp => .inl ⟨p, h.contains hp, rfl⟩
    have hd' : ∀ p, q'.Contains p → crateTexts H cs (p.text H) := fun p hp => .inl ⟨p, h'.contains hp, rfl⟩
    rw [RTy.semId_text, RTy.semId_text] at e
    have hx := q.outlined_fills hd
    have hy := q'.outlined_fills hd'
    rw [← semHash_inj hc (hd q (.refl _)) (hd' q' (.refl _)) e] at hy
    rw [apart_ne hc hx hy, Bool.false_or, Bool.or_eq_true] at ha
    exact ho (ha.elim (fun h => offset_overlap h hx hy) fun h => offset_overlap h hy hx)

theorem idsApart {H : Hash} (hc : ¬ Collision H (crateTexts H crates)) (ho : ¬ Overlap H (crateTexts H crates)) :
    IdsApart H crates := idsApart_of crates_nodes hc ho

end Verif.Stl
