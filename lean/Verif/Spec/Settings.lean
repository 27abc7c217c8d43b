import Verif.Spec.FileTree

/-!
# Settings files: `key = value` lines with comments

What a settings file in the format of Uncrustify says, and what comparing two such files should report.
-/

namespace Verif.Spec

/-- Blanks that may stand around keys and values. -/
def blank (c : Char) : Bool := c = ' ' || c = '\t'

/-- A key: without blanks, `=`, `#`, quotes or line ends. -/
def PlainWord (w : Text) : Prop :=
  w ≠ [] ∧ ∀ c ∈ w, c ∉ [' ', '\t', '\n', '\r', '\x0b', '\x0c', '=', '#', '"', '\''] ∧ c.toNat < 128 ∧ 32 < c.toNat

/-- A value: no `#`, quotes or line ends in it, and no blanks or other white space at its ends. -/
def PlainValue (v : Text) : Prop :=
  (∀ c ∈ v, c ∉ ['\n', '\r', '#', '"', '\'']) ∧ ∀ c ∈ v.head?.toList ++ v.getLast?.toList, c.toNat < 128 ∧ 32 < c.toNat

/-- A line of a settings file. -/
inductive SettingLine where
  /-- Blanks, and maybe a comment. -/
  | remark (blanks : Text) (comment : Option Text)
  /-- `key = value # comment`; the four texts of blanks stand before the key, after it, and around the value. -/
  | assign (b1 key b2 b3 value b4 : Text) (comment : Option Text)

namespace SettingLine

/-- The text of the comment, with its mark. -/
def commentText : Option Text → Text
  | none => []
  | some c => '#' :: c

/-- The line as it stands in the file, without its line feed. -/
def text : SettingLine → Text
  | remark b c => b ++ commentText c
  | assign b1 k b2 b3 v b4 c => b1 ++ k ++ b2 ++ '=' :: (b3 ++ v ++ b4 ++ commentText c)

/-- Keys and values are as above, blanks are blank, and comments end with the line. -/
def Valid : SettingLine → Prop
  | remark b c => (∀ x ∈ b, blank x) ∧ ∀ t ∈ c, '\n' ∉ t ∧ '\r' ∉ t
  | assign b1 k b2 b3 v b4 c => (∀ x ∈ b1 ++ b2 ++ b3 ++ b4, blank x) ∧ PlainWord k ∧ PlainValue v ∧
    ∀ t ∈ c, '\n' ∉ t ∧ '\r' ∉ t

/-- What the line sets. -/
def sets : SettingLine → Option (Text × Text)
  | remark _ _ => none
  | assign _ k _ _ v _ _ => some (k, v)

end SettingLine

/-- The file with these lines. -/
def settingsText (ls : List SettingLine) : Text := ls.flatMap fun l => l.text ++ ['\n']

/-- The value of a key: the last line that sets it counts. -/
def settingOf (ls : List SettingLine) (key : Text) : Option Text :=
  ((ls.filterMap SettingLine.sets).reverse.lookup key)

end Verif.Spec
