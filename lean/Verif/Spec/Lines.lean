/-!
# Specification: lines in a byte string
-/

namespace Spine.Lines

variable {β : Type}

/-- `line` is the first line of `q`, terminated by a delimiter, and `rest` is what follows. -/
def First (delims : List β) (q line rest : List β) : Prop :=
  ∃ d ∈ delims, q = line ++ d :: rest ∧ ∀ c ∈ line, c ∉ delims

/-- `q` contains no complete line. -/
def NoLine (delims : List β) (q : List β) : Prop := ∀ c ∈ q, c ∉ delims

/-- Splitting a byte string at its delimiters: the complete lines in order, and the unterminated rest. -/
inductive Split (delims : List β) : List β → List (List β) → List β → Prop
  | done {q} : NoLine delims q → Split delims q [] q
  | line {q line rest lines tail} : First delims q line rest → Split delims rest lines tail →
      Split delims q (line :: lines) tail

end Spine.Lines
