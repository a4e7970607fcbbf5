import Verif.Spec.Export
import Verif.Props.Text
import Verif.Props.SysText
import Verif.Props.Binary
import Verif.Props.Library
import Verif.Lemmas.StonTyped

/-!
# C88: exported libraries
-/

namespace Verif

theorem sep_inj {c : Byte} : ∀ {a b x y : Bytes}, c ∉ a → c ∉ b → a ++ c :: x = b ++ c :: y → a = b ∧ x = y
  | [], [], _, _, _, _, h => by simpa using h
  | [], d :: b, x, y, _, hb, h => by
    simp only [List.nil_append, List.cons_append, List.cons.injEq] at h
    simp [h.1] at hb
  | d :: a, [], x, y, ha, _, h => by
    simp only [List.nil_append, List.cons_append, List.cons.injEq] at h
    simp [h.1] at ha
  | d :: a, e :: b, x, y, ha, hb, h => by
    simp only [List.cons_append, List.cons.injEq] at h
    simp only [List.mem_cons, not_or] at ha hb
    obtain ⟨h1, h2⟩ := sep_inj ha.2 hb.2 h.2
    exact ⟨by rw [h.1, h1], h2⟩

theorem Unmarked.tail {c : Byte} {x : Bytes} (h : Unmarked (c :: x)) : Unmarked x :=
  fun p s hx => h (c :: p) s (by rw [hx]; rfl)

theorem unmarked_inj : ∀ {x y r s : Bytes}, Unmarked x → Unmarked y →
    x ++ 10 :: 45 :: 125 :: r = y ++ 10 :: 45 :: 125 :: s → x = y ∧ r = s
  | [], [], _, _, _, _, h => by simpa using h
  | [], c :: y, r, s, _, hy, h => by
    exfalso
    simp only [List.nil_append, List.cons_append, List.cons.injEq] at h
    match y, h.2 with
    | [], h2 => simp at h2
    | [d], h2 => simp at h2
    | d :: e :: y, h2 =>
      simp only [List.cons_append, List.cons.injEq] at h2
      exact hy [c] y (by rw [← h2.1, ← h2.2.1]; rfl)
  | c :: x, [], r, s, hx, _, h => by
    exfalso
    simp only [List.nil_append, List.cons_append, List.cons.injEq] at h
    match x, h.2 with
    | [], h2 => simp at h2
    | [d], h2 => simp at h2
    | d :: e :: x, h2 =>
      simp only [List.cons_append, List.cons.injEq] at h2
      exact hx [c] x (by rw [h2.1, h2.2.1]; rfl)
  | c :: x, d :: y, r, s, hx, hy, h => by
    simp only [List.cons_append, List.cons.injEq] at h
    obtain ⟨h1, h2⟩ := unmarked_inj hx.tail hy.tail h.2
    exact ⟨by rw [h.1, h1], h2⟩

theorem pushPath_inj {dir a b : Bytes} (h : pushPath dir a = pushPath dir b) : a = b := by
  unfold pushPath at h
  split at h
  · exact h
  · split at h
    · exact List.append_cancel_left h
    · exact List.append_cancel_left h

theorem StlFormat.no_dot (f : StlFormat) : (46 : Byte) ∉ f.display := by
  cases f <;> simp [StlFormat.display]

theorem exportPath_inj {dir : Bytes} {n m : Name} {ver ver' : Bytes} {f g : StlFormat}
    (h : exportPath (some dir) n ver f.display = exportPath (some dir) m ver' g.display) : n = m ∧ ver = ver' ∧ f = g := by
  have h : pushPath dir (fileName n ver f.display) = pushPath dir (fileName m ver' g.display) := Option.some.inj h
  have h := pushPath_inj h
  unfold fileName at h
  have hn : ∀ n : Name, (64 : Byte) ∉ n.bytes := fun n => n.isWord.not_mem (by decide)
  simp only [List.append_assoc] at h
  obtain ⟨h1, h2⟩ := sep_inj (c := 64) (hn n) (hn m) h
  obtain ⟨h3, h4⟩ := last_dot_inj f.no_dot g.no_dot (by simpa [List.append_assoc] using h2)
  refine ⟨Name.eq_of_bytes h1, h3, ?_⟩
  revert h4; cases f <;> cases g <;> simp [StlFormat.display]

section
variable {G : Glyphs} {H : Hash} {armored : TypeLib → Bytes}

theorem export_path {l : TypeLib} {f : StlFormat} {dir : Option Bytes} {ver : Bytes} {header : Option Bytes} {w : Exported}
    (h : l.export G H armored f dir ver header = .ok w) : w.path = exportPath dir l.name ver f.display := by
  unfold TypeLib.export at h
  cases f <;> simp only at h
  · cases hs : l.toSymbolic H with
    | ok s => rw [hs] at h; cases h; rfl
    | _ => rw [hs] at h; cases h
  · split at h
    · cases h; rfl
    · cases h
  · cases h; rfl

theorem export_source {l : TypeLib} {dir : Option Bytes} {ver : Bytes} {header : Option Bytes} {w : Exported}
    (h : l.export G H armored .source dir ver header = .ok w) :
    ∃ s, l.toSymbolic H = .ok s ∧ w.content = l.source G H s ver (header.getD []) := by
  unfold TypeLib.export at h
  cases hs : l.toSymbolic H with
  | ok s => simp only [hs] at h; cases h; exact ⟨s, rfl, rfl⟩
  | _ => simp only [hs] at h; cases h

end

/-- **C88**: different libraries, versions or formats go to different files of a directory. -/
theorem C88_files (G : Glyphs) (H : Hash) (armored : TypeLib → Bytes) (dir : Bytes) (l m : TypeLib) (f g : StlFormat)
    (ver ver' : Bytes) (header header' : Option Bytes) (w w' : Exported)
    (h : l.export G H armored f (some dir) ver header = .ok w)
    (h' : m.export G H armored g (some dir) ver' header' = .ok w') (hp : w.path = w'.path) :
    l.name = m.name ∧ ver = ver' ∧ f = g := by
  rw [export_path h, export_path h'] at hp
  exact exportPath_inj hp

/-- **C88**: without a directory, the library goes to the standard output; otherwise, to a file of the directory with
the extension of the format. -/
theorem C88_place (G : Glyphs) (H : Hash) (armored : TypeLib → Bytes) (dir : Option Bytes) (l : TypeLib) (f : StlFormat)
    (ver : Bytes) (header : Option Bytes) (w : Exported) (h : l.export G H armored f dir ver header = .ok w) :
    match dir with
    | none => w.path = none
    | some d => ∃ sep, (sep = [] ∨ sep = b!"/") ∧ w.path = some (d ++ sep ++ l.name.bytes ++ b!"@" ++ ver ++ b!"." ++ f.display) := by
  have hp := export_path h
  cases dir with
  | none => exact hp
  | some d =>
    rw [hp]
    simp only [exportPath, Option.map_some, pushPath, fileName]
    split
    · rename_i hl
      have : d = [] := by simpa using hl
      exact ⟨[], .inl rfl, by simp [this]⟩
    · split
      · exact ⟨[], .inl rfl, by simp [List.append_assoc]⟩
      · exact ⟨b!"/", .inr rfl, by simp [List.append_assoc]⟩

/-- **C88, what holds of the binary form**: it is read back as the same library, if it has less than 2^24 bytes;
otherwise, exporting is an error. -/
theorem C88_binary_partial (G : Glyphs) (H : Hash) (armored : TypeLib → Bytes) (dir : Option Bytes) (l : TypeLib)
    (hw : l.WF) (ver : Bytes) (header : Option Bytes) :
    (l.encode.length < 2 ^ 24 → ∃ w, l.export G H armored .binary dir ver header = .ok w ∧
      fromSerialized decTypeLib w.content = .ok l) ∧
    (2 ^ 24 ≤ l.encode.length → l.export G H armored .binary dir ver header = .err .limit) := by
  constructor
  · intro h
    refine ⟨_, by unfold TypeLib.export EXPORT_LIMIT; exact if_pos (by omega), ?_⟩
    obtain ⟨_, m, h1, h2, _⟩ := C11_library_roundtrip H hw
    rw [← h2]; rw [h2] at h1 ⊢; exact h1
  · intro h
    unfold TypeLib.export EXPORT_LIMIT
    exact if_neg (by omega)

/-- A type of `n` items, each of `n` items, each of `n` references. -/
def exHugeTy (n : Nat) : Ty LibRef :=
  .tuple (List.replicate n (.inline (.tuple (List.replicate n (.inline (.tuple (List.replicate n (.named (Id32.rep 1)))))))))

/-- A library with one type of this kind. -/
def exHugeLib (n : Nat) : TypeLib := ⟨n!"Lib", [], [], [(n!"X", exHugeTy n)]⟩

theorem exHugeLib_wf {n : Nat} (h : 1 ≤ n) (h' : n ≤ 255) : (exHugeLib n).WF := by
  refine ⟨?_, by simp [exHugeLib], by simp [exHugeLib], ?_, by simp [exHugeLib], List.Pairwise.nil,
    by simp [exHugeLib], by simp [exHugeLib], ?_⟩
  · show List.Pairwise _ _
    simp [exHugeLib]
  · simp [DepsSorted, exHugeLib]
  · intro p hp
    simp only [exHugeLib, List.mem_cons, List.not_mem_nil, or_false] at hp
    subst hp
    refine ⟨by simp [exHugeTy, Ty.WF, h, h'], fun r hr => ?_⟩
    obtain ⟨-, rfl⟩ := List.mem_replicate.1 hr
    refine ⟨by simp [Ty.WF, h, h'], fun r hr => ?_⟩
    obtain ⟨-, rfl⟩ := List.mem_replicate.1 hr
    refine ⟨by simp [Ty.WF, h, h'], fun r hr => ?_⟩
    obtain ⟨-, rfl⟩ := List.mem_replicate.1 hr
    trivial

theorem flatMap_replicate_length {α : Type} (f : α → Bytes) (n : Nat) (a : α) :
    ((List.replicate n a).flatMap f).length = n * (f a).length := by
  induction n with
  | zero => simp
  | succ n ih => rw [List.replicate_succ, List.flatMap_cons, List.length_append, ih, Nat.succ_mul]; omega

theorem exHugeLib_length (n : Nat) : n * (n * (n * 33)) ≤ (exHugeLib n).encode.length := by
  have hid : (encId (Id32.rep 1)).length = 32 := (Id32.rep 1).len
  have e0 : (InlineRef1.encode (.named (Id32.rep 1))).length = 33 := by
    simp only [InlineRef1.encode, List.length_cons, hid]
  have e : ∀ {Ref : Type} (f : Ref → Bytes) (r : Ref), n * (f r).length ≤ (Ty.encode f (.tuple (List.replicate n r))).length := by
    intro Ref f r
    simp only [Ty.encode, encSeq, List.length_cons, List.length_append, flatMap_replicate_length]
    omega
  have e1 := e InlineRef1.encode (.named (Id32.rep 1))
  rw [e0] at e1
  have e2 := e InlineRef.encode (.inline (.tuple (List.replicate n (.named (Id32.rep 1)))))
  have e3 := e LibRef.encode (.inline (.tuple (List.replicate n (.inline (.tuple (List.replicate n (.named (Id32.rep 1))))))))
  have l2 : ∀ t, (Ty.encode InlineRef1.encode t).length ≤ (InlineRef.encode (.inline t)).length := fun t => by
    simp [InlineRef.encode]
  have l3 : ∀ t, (Ty.encode InlineRef.encode t).length ≤ (LibRef.encode (.inline t)).length := fun t => by
    simp [LibRef.encode]
  have h2 := Nat.le_trans (Nat.mul_le_mul_left n (Nat.le_trans e1 (l2 _))) e2
  have h3 := Nat.le_trans (Nat.mul_le_mul_left n (Nat.le_trans h2 (l3 _))) e3
  refine Nat.le_trans h3 ?_
  simp only [TypeLib.encode, exHugeLib, encSeq, encPair, exHugeTy, List.flatMap_cons, List.length_append]
  omega

/-- **C88 is violated** for large libraries: they cannot be exported in binary form. -/
theorem C88_binary_violated (G : Glyphs) (H : Hash) (armored : TypeLib → Bytes) (dir : Option Bytes) (ver : Bytes)
    (header : Option Bytes) :
    ∃ l : TypeLib, l.WF ∧ l.export G H armored .binary dir ver header = .err .limit :=
  ⟨exHugeLib 255, exHugeLib_wf (by decide) (by decide),
    (C88_binary_partial G H armored dir _ (exHugeLib_wf (by decide) (by decide)) ver header).2
      (Nat.le_trans (by decide) (exHugeLib_length 255))⟩

/-- The header of a source file, from which the id, the name, the version with the rest of the header and the text of the
library are told. -/
theorem source_inj {G : Glyphs} (hG : G.IdLine) {H : Hash} {l m : TypeLib} {s t : SymbolicLib} {ver ver' header header' : Bytes}
    (hx : Unmarked (ver ++ header)) (hy : Unmarked (ver' ++ header'))
    (h : l.source G H s ver header = m.source G H t ver' header') :
    l.id H = m.id H ∧ l.name = m.name ∧ ver ++ header = ver' ++ header' ∧ s.text G H = t.text G H := by
  have hn : ∀ n : Name, (10 : Byte) ∉ n.bytes := fun n => n.isWord.not_mem (by decide)
  unfold TypeLib.source at h
  simp only [List.append_assoc] at h
  have h := List.append_cancel_left (List.append_cancel_left (List.append_cancel_left h))
  obtain ⟨h1, h⟩ := sep_inj (c := 10) (hG.line _) (hG.line _) h
  have h := List.append_cancel_left (as := b!"  Name: ") h
  obtain ⟨h2, h⟩ := sep_inj (c := 10) (hn _) (hn _) h
  have h := List.append_cancel_left (as := b!"  Version: ") h
  rw [← List.append_assoc, ← List.append_assoc ver'] at h
  obtain ⟨h3, h⟩ := unmarked_inj hx hy h
  refine ⟨hG.inj _ _ h1, Name.eq_of_bytes h2, h3, ?_⟩
  have h := List.append_cancel_left (as := [10, 10]) h
  exact List.append_cancel_right h

/-- **C88, what holds of the source form**: libraries exported to the same contents have the same id, name, version with
the rest of the header, dependencies, types used from them, and definitions. Missing: definitions which the text does not
show (see C68), and headers which contain the end of a comment. -/
theorem C88_source_partial (G : Glyphs) (P : Byte → Prop) (hG : G.Clear P) (hI : G.IdLine) (H : Hash)
    (armored : TypeLib → Bytes) (dir dir' : Option Bytes) (l m : TypeLib) (ver ver' : Bytes) (header header' : Option Bytes)
    (w w' : Exported) (s t : SymbolicLib) (hs : l.toSymbolic H = .ok s) (ht : m.toSymbolic H = .ok t)
    (hps : ∀ e ∈ s.types, (TranspileRef.surfaceTy e.2).Plain G P false)
    (hpt : ∀ e ∈ t.types, (TranspileRef.surfaceTy e.2).Plain G P false)
    (hx : Unmarked (ver ++ header.getD [])) (hy : Unmarked (ver' ++ header'.getD []))
    (h : l.export G H armored .source dir ver header = .ok w)
    (h' : m.export G H armored .source dir' ver' header' = .ok w') (hc : w.content = w'.content) :
    l.id H = m.id H ∧ l.name = m.name ∧ ver ++ header.getD [] = ver' ++ header'.getD [] ∧ s.view G H = t.view G H := by
  obtain ⟨s', hs', h1⟩ := export_source h
  obtain ⟨t', ht', h2⟩ := export_source h'
  rw [hs] at hs'; cases hs'
  rw [ht] at ht'; cases ht'
  rw [h1, h2] at hc
  obtain ⟨e1, e2, e3, e4⟩ := source_inj hI hx hy hc
  exact ⟨e1, e2, e3, C68_library_partial G P hG H s t hps hpt e4⟩

/-- **C88, what holds of the source form of compiled libraries**: the library compiled from a symbolic one can be exported,
and what is shown is the symbolic library. Missing: libraries for which two named types have the same id, and full ones
(`Roomy`, see C24). -/
theorem C88_compiled_partial (G : Glyphs) (H : Hash) (armored : TypeLib → Bytes) (debug : Bool) (fuel : Nat)
    (s : SymbolicLib) (hw : s.WF) (hrec : s.Recorded) (l : TypeLib) (h : s.compile H debug fuel = .ok l) (hroom : l.Roomy)
    (dir : Option Bytes) (ver : Bytes) (header : Option Bytes) :
    (∃ w pre, l.export G H armored .source dir ver header = .ok w ∧
      w.content = pre ++ SymbolicLib.text G H { s with dependencies := l.dependencies } ++ [10]) ∨
    Collision H (· ∈ l.namedTexts) := by
  rcases C24_compiled_roundtrip_partial H debug fuel s hw hrec l h hroom with ⟨h1, -⟩ | h1
  · left
    exact ⟨⟨exportPath dir l.name ver StlFormat.source.display, TypeLib.source G H l _ ver (header.getD [])⟩, _,
      by unfold TypeLib.export; simp only [h1]; rfl, by unfold TypeLib.source; rfl⟩
  · exact .inr h1

/-- **C88 is violated** for libraries with an external type that is not recorded: exporting their source form panics. -/
theorem C88_source_violated (G : Glyphs) (H : Hash) (armored : TypeLib → Bytes) (dir : Option Bytes) (ver : Bytes)
    (header : Option Bytes) (e : ExternRef) :
    ∃ l : TypeLib, l.WF ∧ l.export G H armored .source dir ver header = .panic := by
  refine ⟨⟨n!"Lib", [], [], [(n!"A", .tuple [.extern e])]⟩, ?_, rfl⟩
  refine ⟨?_, by simp, by simp, ?_, by simp, List.Pairwise.nil, by simp, by simp, ?_⟩
  · show List.Pairwise _ _
    simp
  · simp [DepsSorted]
  · intro p hp
    simp only [List.mem_cons, List.not_mem_nil, or_false] at hp
    subst hp
    exact ⟨by simp [Ty.WF], by simp [Ty.refs, LibRef.Deep]⟩

/-- **C88**: the symbolic form of a library goes to the same file as its source form. -/
theorem C88_symbolic_place (G : Glyphs) (H : Hash) (armored : TypeLib → Bytes) (l : TypeLib) (s : SymbolicLib)
    (hs : l.toSymbolic H = .ok s) (dir : Option Bytes) (ver : Bytes) (header : Option Bytes) (w : Exported)
    (h : l.export G H armored .source dir ver header = .ok w) :
    (s.export G H dir ver header).path = w.path ∧ (s.export G H dir ver header).content ≠ w.content := by
  have hn : s.name = l.name := by
    unfold TypeLib.toSymbolic at hs
    cases he : toSymTypes (l.symContext H) l.types l.externTypes with
    | ok p => rw [he] at hs; cases hs; rfl
    | _ => rw [he] at hs; cases hs
  constructor
  · rw [export_path h]
    show exportPath dir s.name ver _ = _
    rw [hn]; rfl
  · obtain ⟨s', -, h1⟩ := export_source h
    rw [h1]
    simp [SymbolicLib.export, TypeLib.source]

/-- **C88, what holds of symbolic libraries**: those exported to the same contents have the same name, version with the
rest of the header, dependencies, types used from them, and definitions; different names or versions go to different files
of a directory. Missing: definitions which the text does not show (see C68), and headers which contain the end of a
comment. -/
theorem C88_symbolic_partial (G : Glyphs) (P : Byte → Prop) (hG : G.Clear P) (H : Hash) (dir dir' : Option Bytes)
    (s t : SymbolicLib) (ver ver' : Bytes) (header header' : Option Bytes) :
    ((∀ e ∈ s.types, (TranspileRef.surfaceTy e.2).Plain G P false) →
      (∀ e ∈ t.types, (TranspileRef.surfaceTy e.2).Plain G P false) →
      Unmarked (ver ++ header.getD []) → Unmarked (ver' ++ header'.getD []) →
      (s.export G H dir ver header).content = (t.export G H dir' ver' header').content →
      s.name = t.name ∧ ver ++ header.getD [] = ver' ++ header'.getD [] ∧ s.view G H = t.view G H) ∧
    ∀ d, (s.export G H (some d) ver header).path = (t.export G H (some d) ver' header').path →
      s.name = t.name ∧ ver = ver' := by
  constructor
  · intro hps hpt hx hy h
    have hn : ∀ n : Name, (10 : Byte) ∉ n.bytes := fun n => n.isWord.not_mem (by decide)
    simp only [SymbolicLib.export, List.append_assoc] at h
    have h := List.append_cancel_left (List.append_cancel_left (List.append_cancel_left h))
    obtain ⟨h2, h⟩ := sep_inj (c := 10) (hn _) (hn _) h
    have h := List.append_cancel_left (as := b!"  Version: ") h
    rw [← List.append_assoc, ← List.append_assoc ver'] at h
    obtain ⟨h3, h⟩ := unmarked_inj hx hy h
    have h := List.append_cancel_left (as := [10, 10]) h
    exact ⟨Name.eq_of_bytes h2, h3, C68_library_partial G P hG H s t hps hpt (List.append_cancel_right h)⟩
  · intro d h
    have h := exportPath_inj (f := .source) (g := .source) h
    exact ⟨h.1, h.2.1⟩

/-! ### Cases which meet the hypotheses -/

theorem Unmarked.of_free {x : Bytes} (h : (125 : Byte) ∉ x) : Unmarked x := by
  intro p s hx
  exact h (by rw [hx]; simp)

/-- Texts of ids which meet the hypothesis. -/
example : (shownGlyphs (exIdText b!"stl:id-") exMnemo2).IdLine where
  line i h := by
    have := exIdText_id (c := 115) (p := b!"tl:id-") (by decide) (by decide) (by decide) i
    simp only [idText, Bool.and_eq_true, List.all_eq_true] at this
    exact absurd (this.1.1.1 10 h) (by decide)
  inj := exIdText_inj _

/-- A version with the rest of a header. -/
example : Unmarked (b!"0.1.0" ++ (some ([10] ++ b!"  License: Apache-2.0")).getD []) := .of_free (by decide)

/-- The library of C11 in binary form: 2^24 bytes are not reached, and the file has the name of the library. -/
example (G : Glyphs) (H : Hash) (armored : TypeLib → Bytes) : exBinLib.WF ∧ exBinLib.encode.length < 2 ^ 24 ∧
    exBinLib.export G H armored .binary (some b!"stl") b!"0.1.0" none = .ok ⟨some b!"stl/Lib@0.1.0.stl", exBinLib.encode⟩ := by
  have h : exBinLib.encode.length < 2 ^ 24 := by decide +kernel
  refine ⟨exBinLib_wf, h, ?_⟩
  unfold TypeLib.export EXPORT_LIMIT
  exact if_pos (by omega)

end Verif
