import Verif.Props.Typify
import Verif.Lemmas.TypifyErrors

/-!
# Property C96: errors tell the truth
-/

namespace Verif

/-- The example system without the type of the characters. -/
def exHole : TypeSystem := exSys.filter fun p => p.1 ≠ Id32.rep 3

/-- **C96 is violated**: reading a list whose item type is absent reports that the list type is
absent. The list type is in the system; the absent type is not mentioned. -/
theorem C96_named_violated (debug : Bool) (fuel : Nat) (bs : Bytes) :
    read (exWith debug exHole) (fuel + 1) (Id32.rep 4) bs = .err (.typeAbsent (Id32.rep 4)) ∧
    (exWith debug exHole).find (Id32.rep 4) = some (.list (Id32.rep 3) ⟨0, 10⟩) ∧
    (exWith debug exHole).find (Id32.rep 3) = none ∧
    ¬ReadBlames (exWith debug exHole) (Id32.rep 4) (.typeAbsent (Id32.rep 4)) bs := by
  have h1 : (exWith debug exHole).find (Id32.rep 4) = some (.list (Id32.rep 3) ⟨0, 10⟩) := by
    cases debug <;> rfl
  have h2 : (exWith debug exHole).find (Id32.rep 3) = none := by cases debug <;> rfl
  refine ⟨?_, h1, h2, ?_⟩
  · simp only [read, h1, readTy, readList, h2]
  · rintro ⟨j, c, bs', -, -, rfl, hn⟩
    rw [h1] at hn
    cases hn

/-- **C96, reading**: an error of reading is true of some place of the data. An absent type is
reached from the type that is read and is not in the system; an unknown tag is the first byte at that
place and the enumeration or union expected there has no variant with this tag; a primitive that is
not implemented is one; text that is not ASCII or not UTF-8 is there with its length; and where the
data end, reading from that place on hits the end at any depth bound. Missing: an absent item type of
a list, for which the list type is named instead (`C96_named_violated`). -/
theorem C96_read_partial (E : Env) (n : Nat) (id : SemId) (bs : Bytes) (e : DErr)
    (h : read E n id bs = .err e) : NamesList E id e ∨ ReadBlames E id e bs :=
  read_errs E n id bs e h

example (debug : Bool) : read (exE debug) 5 (Id32.rep 13) [0xfe, 0xff, 2, 1, 67] = .err .enumTag ∧
    read (exE debug) 5 (Id32.rep 13) [0xfe, 0xff, 1, 1] = .err .io ∧
    read (exE debug) 5 (Id32.rep 13) [0xfe, 0xff, 1, 1, 0x80] = .err .ascii := by
  cases debug <;> exact ⟨rfl, rfl, rfl⟩

example (debug : Bool) : read (exWith debug exHole) 5 (Id32.rep 12) [1, 0, 2, 65, 66, 2, 7, 9] =
    .err (.unknownType (Id32.rep 3)) := by cases debug <;> rfl

/-- **C96, bytes left**: bytes are reported as left over exactly if a value was read and some byte
follows it. -/
theorem C96_left (E : Env) (n : Nat) (id : SemId) (bs : Bytes) :
    deserialize E n id bs = .err .notEntirelyConsumed ↔
      ∃ v c rest, read E n id bs = .ok (v, rest) ∧ bs = c ++ rest ∧ rest ≠ [] := by
  unfold deserialize
  cases h : read E n id bs with
  | ok r =>
    obtain ⟨v, rest⟩ := r
    obtain ⟨c, hc, -, -⟩ := read_local E n id bs v rest h
    simp only [Out.bind_ok]
    by_cases hr : rest = []
    · subst hr
      constructor
      · intro h'
        cases h'
      · rintro ⟨_, _, _, h1, -, h2⟩
        cases h1
        exact absurd rfl h2
    · rw [if_pos (by simpa using hr)]
      exact ⟨fun _ => ⟨v, c, rest, rfl, hc, hr⟩, fun _ => rfl⟩
  | err e =>
    constructor
    · intro h'
      simp only [Out.bind_err, Out.err.injEq] at h'
      subst h'
      rcases read_errs E n id bs _ h with ⟨_, _, _, h1, -⟩ | ⟨_, _, _, -, -, h1⟩
      · cases h1
      · exact h1.elim
    · rintro ⟨_, _, _, h1, -⟩
      cases h1
  | panic =>
    constructor
    · intro h'
      cases h'
    · rintro ⟨_, _, _, h1, -⟩
      cases h1
  | diverge =>
    constructor
    · intro h'
      cases h'
    · rintro ⟨_, _, _, h1, -⟩
      cases h1

example (debug : Bool) : deserialize (exE debug) 5 (Id32.rep 14) (exBytes ++ [9]) =
    .err .notEntirelyConsumed := by cases debug <;> rfl

theorem Reach.known {sys : TypeSystem} (hc : sys.Closed) {id j : SemId}
    (hi : ∃ t, sys.get id = some t) (h : Reach sys (· = id) j) : ∃ t, sys.get j = some t := by
  induction h with
  | root hr => exact hr ▸ hi
  | step _ ht hm _ => exact hc _ _ ht _ hm

/-- **C96, complete systems**: in a system where every reference resolves, no type is reported as
absent when values of a type of the system are read or checked. -/
theorem C96_closed (E : Env) (hc : E.sys.Closed) (n : Nat) (id i : SemId)
    (hi : ∃ t, E.find id = some t) :
    (∀ bs, read E n id bs ≠ .err (.typeAbsent i) ∧ read E n id bs ≠ .err (.unknownType i)) ∧
    ∀ v, typify E n v id ≠ .err (.typeAbsent i) := by
  have known : ∀ {j}, Reach E.sys (· = id) j → E.find j ≠ none := by
    intro j hj hn
    obtain ⟨t, ht⟩ := hj.known hc hi
    rw [show E.find j = E.sys.get j from rfl, ht] at hn
    cases hn
  refine ⟨fun bs => ⟨fun h => ?_, fun h => ?_⟩, fun v h => ?_⟩
  · rcases read_errs E n id bs _ h with ⟨a, j, sz, h1, h2, h3, h4⟩ | ⟨j, c, bs', h1, -, rfl, h3⟩
    · exact known (.step h2 h3 (by simp [Ty.refs])) h4
    · exact known h1 h3
  · rcases read_errs E n id bs _ h with ⟨a, j, sz, h1, h2, h3, h4⟩ | ⟨j, c, bs', h1, -, rfl, h3⟩
    · cases h1
    · exact known h1 h3
  · obtain ⟨j, w, h1, -, rfl, h3, -⟩ := typify_errs E n v id _ h
    exact known h1 h3

example (debug : Bool) : (exE debug).sys.Closed ∧ ∃ t, (exE debug).find (Id32.rep 14) = some t :=
  ⟨fun id t h r hr => (exE_sane debug).closed id t h r hr, _, by cases debug <;> rfl⟩

/-- **C96, checking**: an error of `typify` is true of some place of the value: of a value that occurs
in it and a type reached from the expected one. The absent type is not in the system; a collection has
a number of items that the type does not admit; two items of a set or two keys of a map are at
different positions and accepted as equal values; a tuple or structure has another number of fields;
the extra field is there and not in the type; a name that is not one or a key that is not a string is
a key of the map; the variant picked by name, tag, string or number is not one of the enumeration or
union; an optional value is a pair that is neither `none` nor `some`; and for a plain mismatch, the
value at that place alone is a mismatch for the type expected there. -/
theorem C96_typify (E : Env) (n : Nat) (v : Val) (id : SemId) (e : TErr)
    (h : typify E n v id = .err e) : Blames E id v e :=
  typify_errs E n v id e h

example (debug : Bool) :
    typify (exE debug) 5 (.list [.struct [(n!"x", .unit), (n!"q", .unit), (n!"z", .unit)]])
      (Id32.rep 15) = .err .typeMismatch ∧
    typify (exE debug) 5 (.list [.struct [(n!"x", .map []), (n!"q", .unit), (n!"z", .unit)]])
      (Id32.rep 15) = .err (.extraField n!"q") ∧
    typify (exE debug) 5 (.tuple [.num (.uint 7), .union (.ord 4) .unit]) (Id32.rep 13) =
      .err .unionTagInvalid ∧
    typify (exE debug) 5 (.map [(.str [65, 66], .set [])]) (Id32.rep 12) = .err .outOfBounds := by
  cases debug <;> exact ⟨rfl, rfl, rfl, rfl⟩

/-- **C96, writing**: a field reported as missing belongs to a structure type reached from the
expected one, and a structure that occurs in the value does not have it. -/
theorem C96_write (E : Env) (n : Nat) (v : Val) (id : SemId) (e : EErr)
    (h : write E n v id = .err e) : WriteBlames E id v e :=
  write_errs E n v id e h

example : write (exE false) 5 (.list [.struct [(n!"x", .map []), (n!"q", .unit)]]) (Id32.rep 15) =
    .err (.missingField n!"y") := rfl

end Verif
