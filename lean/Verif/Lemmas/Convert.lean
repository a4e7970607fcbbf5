import Verif.Spec.Convert

/-!
# Lemmas about the conversion of documents
-/

namespace Verif

/-- The outcome is a value that reads back as `d`, or a panic; which one is told by `plain`. -/
def ConvertsBack {α β : Type} (plain : Bool) (back : α → Option β) (d : β) (o : Out Unit α) : Prop :=
  if plain = true then ∃ v, o = .ok v ∧ back v = some d else o = .panic

theorem ConvertsBack.map {α β α' β' : Type} {p : Bool} {back : α → Option β} {d : β} {o : Out Unit α}
    (h : ConvertsBack p back d o) {back' : α' → Option β'} {f : α → α'} {g : β → β'}
    (hb : ∀ v, back' (f v) = (back v).map g) :
    ConvertsBack p back' (g d) (o >>= fun v => pure (f v)) := by
  unfold ConvertsBack at h ⊢
  split
  · rename_i hp
    rw [if_pos hp] at h
    obtain ⟨v, rfl, hv⟩ := h
    exact ⟨f v, rfl, by rw [hb, hv]; rfl⟩
  · rename_i hp
    rw [if_neg hp] at h
    rw [h]; rfl

theorem ConvertsBack.pair {α β α' β' γ δ : Type} {p q : Bool} {back : α → Option β} {back' : α' → Option β'}
    {d : β} {d' : β'} {o : Out Unit α} {o' : Out Unit α'}
    (h : ConvertsBack p back d o) (h' : ConvertsBack q back' d' o') {f : α → α' → γ} {g : β → β' → δ}
    {back'' : γ → Option δ}
    (hb : ∀ v w, back'' (f v w) = (back v).bind fun a => (back' w).bind fun b => some (g a b)) :
    ConvertsBack (p && q) back'' (g d d') (o >>= fun v => o' >>= fun w => pure (f v w)) := by
  unfold ConvertsBack at h h' ⊢
  cases p with
  | false => simp at h; subst h; simp
  | true =>
    cases q with
    | false =>
      simp at h h'
      obtain ⟨v, rfl, hv⟩ := h
      subst h'; simp
    | true =>
      simp at h h'
      obtain ⟨v, rfl, hv⟩ := h
      obtain ⟨w, rfl, hw⟩ := h'
      simp [hb, hv, hw]

theorem ConvertsBack.ok {α β : Type} {back : α → Option β} {d : β} {v : α} (h : back v = some d) :
    ConvertsBack true back d (.ok v) := by
  simp [ConvertsBack, h]

theorem ConvertsBack.panic {α β : Type} {back : α → Option β} {d : β} :
    ConvertsBack false back d (.panic : Out Unit α) := by
  simp [ConvertsBack]

mutual
theorem Json.readsBack : ∀ j : Json, ConvertsBack j.floatFree jsonOf j j.toVal
  | .null => .ok rfl
  | .bool b => .ok (by cases b <;> rfl)
  | .uint _ => .ok rfl
  | .negInt _ => .ok rfl
  | .float => .panic
  | .str _ => .ok rfl
  | .arr l => (Json.readsBackAll l).map fun _ => rfl
  | .obj l => (Json.readsBackEntries l).map fun _ => rfl
theorem Json.readsBackAll : ∀ l : List Json, ConvertsBack (Json.floatFreeAll l) jsonOfAll l (Json.toVals l)
  | [] => .ok rfl
  | j :: l => (Json.readsBack j).pair (Json.readsBackAll l) fun _ _ => rfl
theorem Json.readsBackEntries : ∀ l : List (Bytes × Json),
    ConvertsBack (Json.floatFreeEntries l) jsonOfEntries l (Json.toEntries l)
  | [] => .ok rfl
  | e :: l => (Json.readsBackEntry e).pair (Json.readsBackEntries l) fun _ _ => rfl
theorem Json.readsBackEntry : ∀ e : Bytes × Json,
    ConvertsBack (Json.floatFreeEntry e) jsonOfEntry e (Json.toEntry e)
  | (_, j) => (Json.readsBack j).map fun _ => rfl
end

mutual
theorem Yaml.readsBack : ∀ j : Yaml, ConvertsBack j.floatFree yamlOf j.untagged j.toVal
  | .null => .ok rfl
  | .bool b => .ok (by cases b <;> rfl)
  | .uint _ => .ok rfl
  | .negInt _ => .ok rfl
  | .float => .panic
  | .str _ => .ok rfl
  | .seq l => (Yaml.readsBackAll l).map fun _ => rfl
  | .mapping l => (Yaml.readsBackEntries l).map fun _ => rfl
  | .tagged _ y => Yaml.readsBack y
theorem Yaml.readsBackAll : ∀ l : List Yaml,
    ConvertsBack (Yaml.floatFreeAll l) yamlOfAll (Yaml.untaggedAll l) (Yaml.toVals l)
  | [] => .ok rfl
  | j :: l => (Yaml.readsBack j).pair (Yaml.readsBackAll l) fun _ _ => rfl
theorem Yaml.readsBackEntries : ∀ l : List (Yaml × Yaml),
    ConvertsBack (Yaml.floatFreeEntries l) yamlOfEntries (Yaml.untaggedEntries l) (Yaml.toEntries l)
  | [] => .ok rfl
  | e :: l => (Yaml.readsBackEntry e).pair (Yaml.readsBackEntries l) fun _ _ => rfl
theorem Yaml.readsBackEntry : ∀ e : Yaml × Yaml,
    ConvertsBack (Yaml.floatFreeEntry e) yamlOfEntry (Yaml.untaggedEntry e) (Yaml.toEntry e)
  | (k, j) => (Yaml.readsBack k).pair (Yaml.readsBack j) fun _ _ => rfl
end

mutual
theorem Toml.readsBack : ∀ j : Toml, ConvertsBack j.plain tomlOf j j.toVal
  | .int _ => .ok rfl
  | .float => .panic
  | .bool b => .ok (by cases b <;> rfl)
  | .str _ => .ok rfl
  | .arr l => (Toml.readsBackAll l).map fun _ => rfl
  | .table l => (Toml.readsBackEntries l).map fun _ => rfl
  | .datetime => .panic
theorem Toml.readsBackAll : ∀ l : List Toml, ConvertsBack (Toml.plainAll l) tomlOfAll l (Toml.toVals l)
  | [] => .ok rfl
  | j :: l => (Toml.readsBack j).pair (Toml.readsBackAll l) fun _ _ => rfl
theorem Toml.readsBackEntries : ∀ l : List (Bytes × Toml),
    ConvertsBack (Toml.plainEntries l) tomlOfEntries l (Toml.toEntries l)
  | [] => .ok rfl
  | e :: l => (Toml.readsBackEntry e).pair (Toml.readsBackEntries l) fun _ _ => rfl
theorem Toml.readsBackEntry : ∀ e : Bytes × Toml,
    ConvertsBack (Toml.plainEntry e) tomlOfEntry e (Toml.toEntry e)
  | (_, j) => (Toml.readsBack j).map fun _ => rfl
end

end Verif
