import Verif.Model.Console
/-
Specification for C108: reading a number from the output of a program with a regular expression.
-/
namespace Verif

/-- A match of the regular expression `key(.*?)stop` after the text `before`, with the group `g`: the
dot does not match the end of a line. -/
def Matches (key stop text before g : List Char) : Prop :=
  (∃ after, text = before ++ key ++ g ++ stop ++ after) ∧ '\n' ∉ g

/-- `re.search(r'key(.*?)stop', text).group(1)` is `g`: the first match, and at that place the one
with the shortest group. -/
def Reads (key stop : String) (text g : List Char) : Prop :=
  ∃ before, Matches key.toList stop.toList text before g ∧
    ∀ before' g', Matches key.toList stop.toList text before' g' →
      before.length < before'.length ∨ (before.length = before'.length ∧ g.length ≤ g'.length)

/-- `re.search(r'key(.*?)stop', text)` is `None`. -/
def Unreadable (key stop : String) (text : List Char) : Prop :=
  ∀ before g, ¬ Matches key.toList stop.toList text before g

/-- The text `s` occurs in `text`. -/
def Occurs (s : String) (text : List Char) : Prop :=
  ∃ before after, text = before ++ s.toList ++ after

/-- What `operator<<` writes for a double: digits, signs, a point, an exponent, `inf` or `nan`. -/
def Numeral (t : List Char) : Prop := ∀ c ∈ t, c.isDigit = true ∨ c ∈ ['+', '-', '.', 'e', 'i', 'n', 'f', 'a']

/-- The texts that are looked for. -/
def keys : List String :=
  ["total time: ", "average time per run: ", "performance: ", "check passed", "check failed!"]

/-- Numbers are written as usual, and none of the texts that are looked for occurs in the name of a
locality or in the message of an exception. -/
structure Plain (x : Console.Outside) : Prop where
  fmt : ∀ d, Numeral (x.fmt d)
  ids : ∀ id ∈ x.ids, ∀ key ∈ keys, ¬ Occurs key id
  caught : ∀ l ∈ x.caught, ∀ key ∈ keys, ¬ Occurs key l

end Verif
