import Verif.Model.LineLoops
import Verif.Props.LineBuffer
/-!
# Property C137: processing all lines that have arrived
-/

namespace Spine.LineBuf

open Ring (Rep)

variable {n : Nat} {l : LineBuf} {q : List Byte}

theorem first_length {D q line rest : List Byte} (h : Lines.First D q line rest) : q.length = line.length + 1 + rest.length := by
  obtain ⟨d, -, rfl, -⟩ := h
  simp; omega

theorem takeWhile_all {β : Type} {f : β → Bool} : ∀ {xs : List β}, (∀ x ∈ xs, f x = true) → xs.takeWhile f = xs
  | [], _ => rfl
  | x :: xs, h => by rw [List.takeWhile_cons_of_pos (h x (by simp)), takeWhile_all fun y hy => h y (by simp [hy])]

theorem hasLine_first (h : Rep n l.ring q) {line rest : List Byte} (hf : Lines.First l.delims q line rest) : l.hasLine = .ok true := by
  simp [hasLine, length_first h hf]

theorem hasLine_none (h : Rep n l.ring q) (hf : Lines.NoLine l.delims q) : l.hasLine = .ok false := by
  simp [hasLine, length_none h hf]

theorem whileRead_rep {D : List Byte} : ∀ {q ls tail}, Lines.Split D q ls tail → ∀ {l : LineBuf} (fuel : Nat) (dst : List Byte), Rep n l.ring q → l.delims = D →
    q.length < fuel → ∃ l', l.whileRead dst fuel = .ok (ls.takeWhile fun line => line.length ≠ 0 ∧ line.length < dst.length, l') ∧
      ((∀ line ∈ ls, line.length ≠ 0 ∧ line.length < dst.length) → Rep n l'.ring tail ∧ l'.delims = D) := by
  intro q ls tail hs
  induction hs with
  | done hno =>
    intro l fuel dst h hD hfuel
    subst hD
    obtain ⟨fuel, rfl⟩ : ∃ k, fuel = k + 1 := ⟨fuel - 1, by omega⟩
    exact ⟨l, by simp [whileRead, getNextLine_none h hno], fun _ => ⟨h, rfl⟩⟩
  | @line q line rest lines tail hf hs ih =>
    intro l fuel dst h hD hfuel
    subst hD
    obtain ⟨fuel, rfl⟩ : ∃ k, fuel = k + 1 := ⟨fuel - 1, by omega⟩
    have hlen := first_length hf
    by_cases hfit : line.length < dst.length
    · obtain ⟨l₁, e₁, h₁, d₁⟩ := getNextLine_first h hf (.inl rfl) dst dst.length (by omega) (by omega)
      by_cases h0 : line.length = 0
      · exact ⟨l₁, by simp [whileRead, e₁, List.takeWhile_cons, List.length_eq_zero_iff.mp h0], fun hall => absurd h0 (hall line (by simp)).1⟩
      · have hl : (line ++ [0] ++ dst.drop (line.length + 1)).length = dst.length := by simp; omega
        obtain ⟨l₂, e₂, h₂⟩ := ih fuel (line ++ [0] ++ dst.drop (line.length + 1)) h₁ d₁ (by omega)
        refine ⟨l₂, ?_, fun hall => h₂ fun x hx => by rw [hl]; exact hall x (by simp [hx])⟩
        rw [whileRead]
        simp only [e₁, res_bind_ok, h0, if_false, e₂, res_pure, hl]
        rw [List.takeWhile_cons_of_pos (by exact decide_eq_true ⟨h0, hfit⟩)]
        simp
    · refine ⟨l, ?_, fun hall => absurd (hall line (by simp)).2 hfit⟩
      rw [whileRead]
      simp [getNextLine_long h hf (.inl rfl) dst dst.length (by omega), hfit]

theorem whileLine_rep {D : List Byte} : ∀ {q ls tail}, Lines.Split D q ls tail → ∀ {l : LineBuf} (fuel : Nat) (dst : List Byte), Rep n l.ring q → l.delims = D →
    q.length < fuel → (∀ line ∈ ls, line.length < dst.length) → ∃ l', l.whileLine dst fuel = .ok (ls, l') ∧ Rep n l'.ring tail := by
  intro q ls tail hs
  induction hs with
  | done hno =>
    intro l fuel dst h hD hfuel _
    subst hD
    obtain ⟨fuel, rfl⟩ : ∃ k, fuel = k + 1 := ⟨fuel - 1, by omega⟩
    exact ⟨l, by simp [whileLine, hasLine_none h hno], h⟩
  | @line q line rest lines tail hf hs ih =>
    intro l fuel dst h hD hfuel hall
    subst hD
    obtain ⟨fuel, rfl⟩ : ∃ k, fuel = k + 1 := ⟨fuel - 1, by omega⟩
    have hlen := first_length hf
    have hfit := hall line (by simp)
    obtain ⟨l₁, e₁, h₁, d₁⟩ := getNextLine_first h hf (.inl rfl) dst dst.length (by omega) (by omega)
    have hl : (line ++ [0] ++ dst.drop (line.length + 1)).length = dst.length := by simp; omega
    obtain ⟨l₂, e₂, h₂⟩ := ih fuel (line ++ [0] ++ dst.drop (line.length + 1)) h₁ d₁ (by omega)
      (fun x hx => by rw [hl]; exact hall x (by simp [hx]))
    refine ⟨l₂, ?_, h₂⟩
    rw [whileLine]
    simp only [hasLine_first h hf, e₁, res_bind_ok, if_true, e₂, res_pure]
    simp

/-- **C137** for the loop that ends when `get_next_line` returns 0: it processes the lines before the first one that is empty or does not fit the
array together with its terminator. If there is none, all lines are processed in order and what follows the last one stays in the buffer. -/
theorem C137_read_partial (hn : 0 < n) (h : Reachable n l) (hq : l.Holds q) {ls : List (List Byte)} {tail : List Byte} (hs : Lines.Split l.delims q ls tail)
    (dst : List Byte) :
    ∃ l', l.whileRead dst (n + 1) = .ok (ls.takeWhile fun line => line.length ≠ 0 ∧ line.length < dst.length, l') ∧
      ((∀ line ∈ ls, line.length ≠ 0 ∧ line.length < dst.length) → l'.Holds tail ∧ l.whileRead dst (n + 1) = .ok (ls, l')) := by
  obtain ⟨q', hq'⟩ := h.rep hn
  obtain rfl := hq'.holds.unique hq
  have := hq'.qle
  obtain ⟨l', e, hl⟩ := whileRead_rep hs (n + 1) dst hq' rfl (by omega)
  refine ⟨l', e, fun hall => ⟨(hl hall).1.holds, ?_⟩⟩
  rw [e]
  congr 2
  exact takeWhile_all fun x hx => decide_eq_true (hall x hx)

/-- **C137** for the loop that asks `has_line` first: if all lines fit the array, all of them, empty ones too, are processed in order. -/
theorem C137_guarded_partial (hn : 0 < n) (h : Reachable n l) (hq : l.Holds q) {ls : List (List Byte)} {tail : List Byte} (hs : Lines.Split l.delims q ls tail)
    (dst : List Byte) (hfit : ∀ line ∈ ls, line.length < dst.length) :
    ∃ l', l.whileLine dst (n + 1) = .ok (ls, l') ∧ l'.Holds tail := by
  obtain ⟨q', hq'⟩ := h.rep hn
  obtain rfl := hq'.holds.unique hq
  have := hq'.qle
  obtain ⟨l', e, hl⟩ := whileLine_rep hs (n + 1) dst hq' rfl (by omega) hfit
  exact ⟨l', e, hl.holds⟩

/-- C137 is false: with the default delimiters, a line that ends with "\r\n" is followed by an empty one, at which the loop ends. The lines after it stay in the
buffer. -/
theorem C137_crlf_counterexample (hn : 0 < n) (h : Reachable n l) (hd : l.delims = [13, 10]) (a rest : List Byte) (hq : l.Holds (a ++ 13 :: 10 :: rest))
    (ha : a ≠ []) (hclean : ∀ c ∈ a, c ∉ l.delims) (dst : List Byte) (hfit : a.length < dst.length) :
    ∃ l', l.whileRead dst (n + 1) = .ok ([a], l') ∧ l'.Holds rest := by
  obtain ⟨q', hq'⟩ := h.rep hn
  obtain rfl := hq'.holds.unique hq
  have hle := hq'.qle
  simp at hle
  obtain ⟨m, rfl⟩ : ∃ m, n = m + 1 := ⟨n - 1, by omega⟩
  have hf : Lines.First l.delims (a ++ 13 :: 10 :: rest) a (10 :: rest) := ⟨13, by simp [hd], rfl, hclean⟩
  obtain ⟨l₁, e₁, h₁, d₁⟩ := getNextLine_first hq' hf (.inl rfl) dst dst.length (by omega) (by omega)
  have hf₁ : Lines.First l₁.delims (10 :: rest) [] rest := ⟨10, by simp [d₁, hd], rfl, by simp⟩
  have hl : (a ++ [0] ++ dst.drop (a.length + 1)).length = dst.length := by simp; omega
  obtain ⟨l₂, e₂, h₂, d₂⟩ := getNextLine_first h₁ hf₁ (.inl rfl) (a ++ [0] ++ dst.drop (a.length + 1)) dst.length (by simp; omega) (by omega)
  refine ⟨l₂, ?_, h₂.holds⟩
  have h0 : a.length ≠ 0 := by simpa [List.length_eq_zero_iff] using ha
  rw [whileRead]
  simp only [e₁, res_bind_ok, h0, if_false]
  rw [whileRead]
  simp only [hl, e₂, res_bind_ok]
  simp

/-- C137 is false: a line that does not fit the array is never processed, nor is any line after it. The first loop ends without changing anything, ... -/
theorem C137_long_counterexample (hn : 0 < n) (h : Reachable n l) (hq : l.Holds q) {line rest : List Byte} (hf : Lines.First l.delims q line rest) (dst : List Byte)
    (hlong : dst.length ≤ line.length) : l.whileRead dst (n + 1) = .ok ([], l) := by
  obtain ⟨q', hq'⟩ := h.rep hn
  obtain rfl := hq'.holds.unique hq
  rw [whileRead]
  simp [getNextLine_long hq' hf (.inl rfl) dst dst.length (by omega)]

/-- ... and the second one never ends, processing nothing but what was in the array before. -/
theorem C137_stuck_counterexample (hn : 0 < n) (h : Reachable n l) (hq : l.Holds q) {line rest : List Byte} (hf : Lines.First l.delims q line rest) (dst : List Byte)
    (hlong : dst.length ≤ line.length) (fuel : Nat) : l.whileLine dst fuel = .error .fuel := by
  obtain ⟨q', hq'⟩ := h.rep hn
  obtain rfl := hq'.holds.unique hq
  induction fuel with
  | zero => rfl
  | succ fuel ih =>
    rw [whileLine]
    simp [hasLine_first hq' hf, getNextLine_long hq' hf (.inl rfl) dst dst.length (by omega), ih]

/-! ### Examples -/

/-- "ab\ncd\ne" and "ab\r\ncd\r\n" with an array of eight characters. -/
example : ((do
    let l ← create .release 16 [13, 10]
    let (_, l) ← l.pushStr [97, 98, 10, 99, 100, 10, 101]
    l.whileRead (List.replicate 8 0) 17).map fun (p : List (List Byte) × LineBuf) => (p.1, p.2.ring.usedSpace)) = .ok ([[97, 98], [99, 100]], 1) := rfl

example : ((do
    let l ← create .release 16 [13, 10]
    let (_, l) ← l.pushStr [97, 98, 13, 10, 99, 100, 13, 10]
    l.whileRead (List.replicate 8 0) 17).map fun (p : List (List Byte) × LineBuf) => (p.1, p.2.ring.usedSpace)) = .ok ([[97, 98]], 4) := rfl

example : ((do
    let l ← create .release 16 [13, 10]
    let (_, l) ← l.pushStr [97, 98, 13, 10, 99, 100, 13, 10]
    l.whileLine (List.replicate 8 0) 17).map fun (p : List (List Byte) × LineBuf) => (p.1, p.2.ring.usedSpace)) = .ok ([[97, 98], [], [99, 100], []], 0) := rfl

example : Lines.Split (β := Byte) [13, 10] [97, 98, 10, 99, 100, 10, 101] [[97, 98], [99, 100]] [101] ∧
    ∀ line ∈ ([[97, 98], [99, 100]] : List (List Byte)), line.length ≠ 0 ∧ line.length < 8 :=
  ⟨.line ⟨10, by decide, rfl, by decide⟩ (.line ⟨10, by decide, rfl, by decide⟩ (.done (by simp [Lines.NoLine]))), by decide⟩

end Spine.LineBuf
