import Mathlib.Data.Nat.Digits.Defs
/-!
# Numbers in text, as `sscanf` documents them (C17 7.21.6.2, 6.4.4.1)
-/

namespace Spine.Text

/-- White space. -/
def blanks : List Char := [' ', '\t', '\n', '\x0b', '\x0c', '\r']

def lower : List Char := ['0', '1', '2', '3', '4', '5', '6', '7', '8', '9', 'a', 'b', 'c', 'd', 'e', 'f']
def upper : List Char := ['0', '1', '2', '3', '4', '5', '6', '7', '8', '9', 'A', 'B', 'C', 'D', 'E', 'F']

/-- The character `c` is a way to write the digit `d`. -/
def Spells (d : Nat) (c : Char) : Prop := lower[d]? = some c ∨ upper[d]? = some c

/-- The text `s` is a non-empty row of digits in base `base`, with value `v`. -/
def Digits (base : Nat) (s : List Char) (v : Nat) : Prop :=
  ∃ ds : List Nat, List.Forall₂ Spells ds s ∧ (∀ d ∈ ds, d < base) ∧ s ≠ [] ∧ v = Nat.ofDigits base ds.reverse

/-- The text does not go on with a digit in base `base`. -/
def Ends (base : Nat) (s : List Char) : Prop := ∀ c r, s = c :: r → ∀ d < base, ¬ Spells d c

/-- White space and a sign in front of a number. -/
inductive Signed : List Char → Int → Prop
  | none : Signed [] 1
  | plus : Signed ['+'] 1
  | minus : Signed ['-'] (-1)

/-- `%<width>d`: the text starts with blanks and then a decimal number of at most `width` characters, sign included; the number is `v`, and `rest`
is what follows.  The number is as long as can be. -/
def Decimal (width : Nat) (s : List Char) (v : Int) (rest : List Char) : Prop :=
  ∃ ws sg t : List Char, ∃ f : Int, ∃ n : Nat, s = ws ++ sg ++ t ++ rest ∧ (∀ c ∈ ws, c ∈ blanks) ∧ Signed sg f ∧ Digits 10 t n ∧ v = f * n ∧
    (sg ++ t).length ≤ width ∧ ((sg ++ t).length = width ∨ Ends 10 rest)

/-- An integer constant of C as long as can be: decimal without a leading 0, octal with one, or hexadecimal. -/
inductive Constant : List Char → Nat → List Char → Prop
  | decimal {t rest n} : Digits 10 t n → (∀ r, t ≠ '0' :: r) → Ends 10 rest → Constant t n rest
  | octal {t rest n} : Digits 8 ('0' :: t) n → Ends 8 rest → (∀ r, t ++ rest ≠ 'x' :: r) → (∀ r, t ++ rest ≠ 'X' :: r) → Constant ('0' :: t) n rest
  | hex {x t rest n} : x = 'x' ∨ x = 'X' → Digits 16 t n → Ends 16 rest → Constant ('0' :: x :: t) n rest

/-- `%i`: blanks, a sign, an integer constant. -/
def Integer (s : List Char) (v : Int) (rest : List Char) : Prop :=
  ∃ ws sg t : List Char, ∃ f : Int, ∃ n : Nat, s = ws ++ sg ++ t ++ rest ∧ (∀ c ∈ ws, c ∈ blanks) ∧ Signed sg f ∧ Constant t n rest ∧ v = f * n

/-- `%<width>s`: blanks, then a word of one to `width` other characters, as long as can be. -/
def Word (width : Nat) (s w rest : List Char) : Prop :=
  ∃ ws : List Char, s = ws ++ w ++ rest ∧ (∀ c ∈ ws, c ∈ blanks) ∧ w ≠ [] ∧ (∀ c ∈ w, c ∉ blanks) ∧ w.length ≤ width ∧
    (w.length = width ∨ ∀ c r, rest = c :: r → c ∈ blanks)

/-- Hour, minute and second with colons between them. -/
def Time (s : List Char) (h m sec : Int) : Prop := ∃ r₁ r₂ r₃, Integer s h (':' :: r₁) ∧ Integer r₁ m (':' :: r₂) ∧ Integer r₂ sec r₃

/-- A word, a day and a year. -/
def Date (s w : List Char) (day year : Int) : Prop := ∃ r₁ r₂ r₃, Word 4 s w r₁ ∧ Decimal 2 r₁ day r₂ ∧ Decimal 4 r₂ year r₃

/-- The number of the month whose three-letter name is where `w` first occurs in the names of the months written one after another. -/
def Month (names w : List Char) (month : Int) : Prop :=
  ∃ pre post, names = pre ++ w ++ post ∧ month = (pre.length / 3 : Nat) + 1 ∧ ∀ pre' post', names = pre' ++ w ++ post' → pre.length ≤ pre'.length

/-- A value of a 32-bit `int`. -/
def FitsInt (v : Int) : Prop := -2147483648 ≤ v ∧ v ≤ 2147483647

end Spine.Text
