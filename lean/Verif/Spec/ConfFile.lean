import Verif.Model.Basic
/-!
What is expected of a configuration file with sections and entries (C72).
-/
namespace Spec.ConfFile
open Wv

abbrev Text := List Byte

/-- Names are the same if they differ in case only. -/
def same (a b : Text) : Prop := a.map tolower = b.map tolower

instance (a b : Text) : Decidable (same a b) := by unfold same; infer_instance

/-- The value of each entry of each section. -/
abbrev Values := Text → Text → Option Text

/-- What a user does. -/
inductive Op where
  | set (sect entry : Text) (value : Option Text)
  | delete (sect : Text)

/-- The values after what a user does: NULL and the empty value remove the entry. -/
noncomputable def apply (M : Values) : Op → Values
  | .set s e v => fun s' e' => if same s' s ∧ same e' e then (if v = some [] then none else v) else M s' e'
  | .delete s => fun s' e' => if same s' s then none else M s' e'

/-- The entry that names the section from which a section inherits. -/
def inherits : Text := str ['I', 'n', 'h', 'e', 'r', 'i', 't', 's']

/-- The section, the section it inherits from, and so on. -/
def chain (M : Values) (s : Text) : Nat → Option Text
  | 0 => some s
  | n + 1 => (chain M s n).bind fun t => M t inherits

/-- The value that is found for an entry: that of the first section of the chain that has it. -/
def Finds (M : Values) (s e v : Text) : Prop :=
  ∃ n t, chain M s n = some t ∧ M t e = some v ∧ ∀ m t', m < n → chain M s m = some t' → M t' e = none

/-- No section of the chain has it. -/
def Lacks (M : Values) (s e : Text) : Prop := ∀ n t, chain M s n = some t → M t e = none

/-- No white space at the ends. -/
def Trimmed (t : Text) : Prop := (∀ b, t.head? = some b → isspace b = false) ∧ (∀ b, t.getLast? = some b → isspace b = false)

/-- One line. -/
def Line (t : Text) : Prop := Trimmed t ∧ (10 : Byte) ∉ t

/-- What a section may be named. -/
def SectName (t : Text) : Prop := Line t ∧ t ≠ [] ∧ ch ']' ∉ t
/-- What an entry may be named. -/
def EntryName (t : Text) : Prop := Line t ∧ t ≠ [] ∧ ch '=' ∉ t ∧ t.head? ≠ some (ch '[')

/-- What a user may do so that it can be saved: names and values are single lines without white space at the ends, and names are not
    like other parts of the file. -/
def Op.Plain : Op → Prop
  | .set s e v => SectName s ∧ EntryName e ∧ ∀ t, v = some t → Line t
  | .delete _ => True

end Spec.ConfFile
