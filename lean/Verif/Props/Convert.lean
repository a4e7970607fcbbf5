import Verif.Lemmas.Convert

/-!
# Property C53: values from JSON, YAML and TOML documents
-/

namespace Verif

/-- JSON documents without floats become values with the same structure, order, strings and numbers:
the document can be read back. What is missing: `C53_float_violated`. -/
theorem C53_json_partial (j : Json) (h : j.floatFree = true) : ∃ v, j.toVal = .ok v ∧ jsonOf v = some j := by
  have := j.readsBack
  rwa [ConvertsBack, if_pos h] at this

/-- YAML documents without floats become values with the same structure, order, strings and numbers:
the document can be read back apart from its tags. What is missing: `C53_float_violated` and
`C53_yaml_tag_violated`. -/
theorem C53_yaml_partial (j : Yaml) (h : j.floatFree = true) :
    ∃ v, j.toVal = .ok v ∧ yamlOf v = some j.untagged := by
  have := j.readsBack
  rwa [ConvertsBack, if_pos h] at this

/-- TOML documents without floats and dates become values with the same structure, order, strings and
numbers: the document can be read back. What is missing: `C53_float_violated`. -/
theorem C53_toml_partial (j : Toml) (h : j.plain = true) : ∃ v, j.toVal = .ok v ∧ tomlOf v = some j := by
  have := j.readsBack
  rwa [ConvertsBack, if_pos h] at this

/-- Different documents become different values. -/
theorem C53_json_injective (j k : Json) (v : Val) (hj : j.toVal = .ok v) (hk : k.toVal = .ok v) : j = k := by
  have h : ∀ d : Json, d.toVal = .ok v → jsonOf v = some d := by
    intro d hd
    have h := d.readsBack
    unfold ConvertsBack at h
    split at h
    · obtain ⟨w, hw, hb⟩ := h
      rw [hd] at hw; cases hw; exact hb
    · rw [hd] at h; cases h
  have := (h j hj).symm.trans (h k hk)
  exact Option.some.inj this

/-- Counterexample to the full claim: every document in which a float (in TOML: or a date) occurs is
a panic. -/
theorem C53_float_violated :
    (∀ j : Json, j.floatFree = false → j.toVal = .panic) ∧
    (∀ j : Yaml, j.floatFree = false → j.toVal = .panic) ∧
    (∀ j : Toml, j.plain = false → j.toVal = .panic) := by
  refine ⟨fun j h => ?_, fun j h => ?_, fun j h => ?_⟩ <;>
  · have := j.readsBack
    rwa [ConvertsBack, h, if_neg (by simp)] at this

/-- Counterexample to the full claim: tags of YAML documents are lost. -/
theorem C53_yaml_tag_violated (tag : Bytes) (y : Yaml) : (Yaml.tagged tag y).toVal = y.toVal := rfl

/-- A document with nested structure and one with a float. -/
example : (Json.obj [([97], .arr [.uint 1, .null, .obj []]), ([98], .bool true)]).floatFree = true ∧
    (Json.obj [([97], .arr [.uint 1, .float])]).floatFree = false := ⟨rfl, rfl⟩
example : (Yaml.mapping [(.seq [.null], .tagged [120] (.str [97]))]).floatFree = true := rfl
example : (Toml.table [([97], .arr [.int 1, .bool false])]).plain = true := rfl

end Verif
