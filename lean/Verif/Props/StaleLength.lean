import Verif.Props.LineBuffer
/-!
# Property C168: reading a line with a length found earlier

`get_next_line`, `drop_next_line` and `get_next_line_view` take the length of the line as an optional argument, to save looking for the delimiter again.
-/

namespace Spine.LineBuf

open Ring (Rep)

variable {n : Nat} {l : LineBuf} {q : List Byte}

/-- Calls that may happen between looking for a line and taking it: pushing without rollover, and looking at the buffer. -/
def Keeps : Op → Prop
  | .ring (.push _ ro) => ro = false
  | .ring (.pushMany _ ro) => ro = false
  | .ring (.peekAt _) | .ring .usedSpace | .ring .freeSpace | .ring .empty | .ring .full | .ring .capacity => True
  | _ => False

theorem step_keeps (h : Rep n l.ring q) {op : Op} (ho : Keeps op) : ∃ l' s, l.step op = .ok l' ∧ Rep n l'.ring (q ++ s) ∧ l'.delims = l.delims := by
  match op with
  | .ring (.push v ro) =>
    obtain rfl : ro = false := ho
    by_cases hq : q.length = n
    · exact ⟨l, [], by simp [step, Ring.step, h.push_reject v hq], by simpa using h, rfl⟩
    · obtain ⟨r, e, h', -⟩ := h.push_space v false (by have := h.qle; omega)
      exact ⟨{ l with ring := r }, [v], by simp [step, Ring.step, e], h', rfl⟩
  | .ring (.pushMany vs ro) =>
    obtain rfl : ro = false := ho
    obtain ⟨r, e, h', -⟩ := Rep.pushMany_false vs h
    exact ⟨{ l with ring := r }, _, by simp [step, Ring.step, e], h', rfl⟩
  | .ring (.peekAt i) => exact ⟨l, [], by simp [step, Ring.step, h.peek], by simpa using h, rfl⟩
  | .ring .usedSpace => exact ⟨l, [], rfl, by simpa using h, rfl⟩
  | .ring .freeSpace => exact ⟨l, [], rfl, by simpa using h, rfl⟩
  | .ring .empty => exact ⟨l, [], rfl, by simpa using h, rfl⟩
  | .ring .full => exact ⟨l, [], rfl, by simpa using h, rfl⟩
  | .ring .capacity => exact ⟨l, [], rfl, by simpa using h, rfl⟩

theorem run_keeps : ∀ (ops : List Op) {l : LineBuf} {q : List Byte}, Rep n l.ring q → (∀ op ∈ ops, Keeps op) →
    ∃ l' s, l.run ops = .ok l' ∧ Rep n l'.ring (q ++ s) ∧ l'.delims = l.delims
  | [], l, q, h, _ => ⟨l, [], rfl, by simpa using h, rfl⟩
  | op :: ops, l, q, h, ho => by
    obtain ⟨l₁, s₁, e₁, h₁, d₁⟩ := step_keeps h (ho op (by simp))
    obtain ⟨l₂, s₂, e₂, h₂, d₂⟩ := run_keeps ops h₁ fun op hop => ho op (by simp [hop])
    exact ⟨l₂, s₁ ++ s₂, by simp [run, e₁, e₂], by simpa using h₂, d₂.trans d₁⟩

theorem stale_popLoop_empty (h : Rep n l.ring []) (dst : List Byte) : ∀ (k i : Nat), l.ring.popLoop dst i k = .ok (dst, l.ring)
  | 0, _ => rfl
  | k + 1, i => by
    rw [Ring.popLoop]
    simp [h.pop_none, stale_popLoop_empty h dst k (i + 1)]

theorem stale_popLoop {r : Ring Byte} (h : Rep n r q) (dst : List Byte) {k : Nat} (hd : k ≤ dst.length) :
    ∃ r', r.popLoop dst 0 k = .ok (q.take k ++ dst.drop (min k q.length), r') ∧ Rep n r' (q.drop k) := by
  by_cases hk : k ≤ q.length
  · obtain ⟨r', e, h', -⟩ := Rep.popLoop k dst 0 h hk (by omega)
    exact ⟨r', by simpa [Nat.min_eq_left hk] using e, h'⟩
  · have split : ∀ (a b : Nat) (r : Ring Byte) (dst : List Byte) (i : Nat),
        r.popLoop dst i (a + b) = (r.popLoop dst i a).bind fun p => p.2.popLoop p.1 (i + a) b := by
      intro a
      induction a with
      | zero => intro b r dst i; simp [Ring.popLoop, Except.bind]
      | succ a ih =>
        intro b r dst i
        rw [Nat.add_right_comm, Ring.popLoop, Ring.popLoop]
        cases r.pop with
        | error f => rfl
        | ok p =>
          obtain ⟨v, r₁⟩ := p
          simp only [res_bind_ok]
          cases v with
          | none => simp only [res_pure, res_bind_ok]; rw [ih]; congr 1; funext p; congr 1; omega
          | some v =>
            simp only
            cases wr dst i v with
            | error f => simp only [res_bind_error]; rfl
            | ok d => simp only [res_bind_ok]; rw [ih]; congr 1; funext p; congr 1; omega
    obtain ⟨r', e, h', -⟩ := Rep.popLoop q.length dst 0 h (Nat.le_refl _) (by omega)
    have hnil : Rep n r' [] := by simpa using h'
    refine ⟨r', ?_, by rw [List.drop_eq_nil_of_le (by omega)]; exact hnil⟩
    rw [show k = q.length + (k - q.length) by omega, split, e]
    simp only [Except.bind]
    rw [stale_popLoop_empty (l := ⟨r', []⟩) hnil, Nat.min_eq_right (by omega), List.take_of_length_le (l := q) (by omega), List.take_of_length_le (l := q) (by omega)]
    simp

theorem stale_pop {r : Ring Byte} (h : Rep n r q) : ∃ v r', r.pop = .ok (v, r') ∧ Rep n r' (q.drop 1) := by
  cases q with
  | nil => exact ⟨none, r, h.pop_none, by simpa using h⟩
  | cons v q =>
    obtain ⟨r', e, h', -⟩ := h.pop_some
    exact ⟨some v, r', e, by simpa using h'⟩

theorem discovered_some (h : Rep n l.ring q) (k : Nat) : l.discovered (some k) = .ok k := by
  rcases Lines.first_or_none l.delims q with hno | ⟨line, rest, hf⟩
  · simp [discovered, length_none h hno]
  · simp [discovered, length_first h hf]

theorem getNextLine_some (h : Rep n l.ring q) (k : Nat) (dst : List Byte) (max : Nat) (hk : 0 < k) (hm : k ≤ max) (hdst : max ≤ dst.length) :
    ∃ l', l.getNextLine dst max (some k) = .ok ((k - 1, (q.take (k - 1) ++ dst.drop (min (k - 1) q.length)).set (k - 1) 0), l') ∧ Rep n l'.ring (q.drop k) ∧
      l'.delims = l.delims := by
  obtain ⟨r₁, e₁, h₁⟩ := stale_popLoop h dst (k := k - 1) (by omega)
  obtain ⟨v, r₂, e₂, h₂⟩ := stale_pop h₁
  refine ⟨{ l with ring := r₂ }, ?_, by simpa [show k - 1 + 1 = k by omega] using h₂, rfl⟩
  unfold getNextLine
  simp only [discovered_some h, res_bind_ok]
  rw [if_neg (by omega)]
  simp only [e₁, e₂, res_bind_ok]
  rw [wr_ok (by simp; omega)]
  rfl

/-- **C168**. The length of the next line, found in any state, stays good while data is pushed without rollover and the buffer is looked at, however often: taking, dropping or
viewing the line with this length is the same as without it, and gives the line that was there then. -/
theorem C168_kept_partial (hn : 0 < n) (h : Reachable n l) (hq : l.Holds q) {line rest : List Byte} (hf : Lines.First l.delims q line rest) {len : Nat}
    (hlen : l.lengthOfNextLine = .ok len) (ops : List Op) (ho : ∀ op ∈ ops, Keeps op) :
    ∃ l' more, l.run ops = .ok l' ∧ l'.Holds (q ++ more) ∧
      (∀ dst max, l'.getNextLine dst max (some len) = l'.getNextLine dst max none) ∧ l'.dropNextLine (some len) = l'.dropNextLine none ∧
      l'.getNextLineView (some len) = l'.getNextLineView none ∧
      ∀ dst max, line.length + 1 ≤ max → max ≤ dst.length → ∃ l'', l'.getNextLine dst max (some len) = .ok ((line.length, line ++ [0] ++ dst.drop (line.length + 1)), l'') ∧
        l''.Holds (rest ++ more) := by
  obtain ⟨q', hq'⟩ := h.rep hn
  obtain rfl := hq'.holds.unique hq
  rw [length_first hq' hf] at hlen
  cases hlen
  obtain ⟨l', s, e, h', d⟩ := run_keeps ops hq' ho
  have hf' : Lines.First l'.delims (q' ++ s) line (rest ++ s) := by rw [d]; exact hf.append s
  have hd : l'.discovered (some (line.length + 1)) = l'.discovered none := by
    rw [discovered_first h' hf' (.inr rfl), discovered_first h' hf' (.inl rfl)]
  refine ⟨l', s, e, h'.holds, fun dst max => by rw [getNextLine, getNextLine, hd], by rw [dropNextLine, dropNextLine, hd], by rw [getNextLineView, getNextLineView, hd], ?_⟩
  intro dst max hm hdst
  obtain ⟨l'', e'', h'', -⟩ := getNextLine_first h' hf' (.inr rfl) dst max hm hdst
  exact ⟨l'', e'', h''.holds⟩

/-- **C168**, any length: `get_next_line` believes the length it is given. If it is not 0 and not above the size given, as many characters are consumed, or all there are; one less is
returned and stored, the array keeps its own characters for those the buffer does not have, and a NUL follows. It is never undefined behaviour. -/
theorem C168_any (hn : 0 < n) (h : Reachable n l) (hq : l.Holds q) (len : Nat) (dst : List Byte) (max : Nat) (hdst : max ≤ dst.length) :
    (len = 0 ∨ max < len → l.getNextLine dst max (some len) = .ok ((0, dst), l)) ∧
    (0 < len → len ≤ max → ∃ dst' l', l.getNextLine dst max (some len) = .ok ((len - 1, dst'), l') ∧ dst'.length = dst.length ∧ l'.Holds (q.drop len) ∧
      dst'[len - 1]? = some 0 ∧ (∀ i < len - 1, dst'[i]? = if i < q.length then q[i]? else dst[i]?) ∧ ∀ i, len ≤ i → dst'[i]? = dst[i]?) := by
  obtain ⟨q', hq'⟩ := h.rep hn
  obtain rfl := hq'.holds.unique hq
  constructor
  · intro hc
    unfold getNextLine
    simp only [discovered_some hq', res_bind_ok]
    rw [if_pos (by omega)]
    rfl
  · intro h0 hm
    obtain ⟨l', e, h', -⟩ := getNextLine_some hq' len dst max h0 hm hdst
    have hlen : (q'.take (len - 1) ++ dst.drop (min (len - 1) q'.length)).length = dst.length := by simp; omega
    refine ⟨_, l', e, by rw [List.length_set, hlen], h'.holds, ?_, ?_, ?_⟩
    · rw [List.getElem?_set_self (by omega)]
    · intro i hi
      rw [List.getElem?_set_ne (by omega)]
      split
      · rw [List.getElem?_append_left (by simp; omega), List.getElem?_take_of_lt hi]
      · rw [List.getElem?_append_right (by simp; omega), List.getElem?_drop]
        congr 1; simp; omega
    · intro i hi
      rw [List.getElem?_set_ne (by omega), List.getElem?_append_right (by simp; omega), List.getElem?_drop]
      congr 1; simp; omega

/-- C168 is false if the buffer was full and a character was pushed with rollover in between: what is taken lacks the first character of the line and ends with its delimiter,
and the first character of what follows is lost. -/
theorem C168_rollover_counterexample (hn : 0 < n) (h : Reachable n l) {c d v w : Byte} {line rest : List Byte} (hq : l.Holds (c :: line ++ d :: w :: rest))
    (hfull : (c :: line ++ d :: w :: rest).length = n) (hf : Lines.First l.delims (c :: line ++ d :: w :: rest) (c :: line) (w :: rest)) (dst : List Byte)
    (hdst : line.length + 2 ≤ dst.length) :
    ∃ l₁ l₂, l.lengthOfNextLine = .ok (line.length + 2) ∧ l.run [.ring (.push v true)] = .ok l₁ ∧
      l₁.getNextLine dst dst.length (some (line.length + 2)) = .ok ((line.length + 1, line ++ [d] ++ [0] ++ dst.drop (line.length + 2)), l₂) ∧ l₂.Holds (rest ++ [v]) := by
  obtain ⟨q', hq'⟩ := h.rep hn
  obtain rfl := hq'.holds.unique hq
  have hlen := length_first hq' hf
  obtain ⟨r₁, e₁, h₁, -⟩ := hq'.push_rollover v hfull
  obtain ⟨l₂, e₂, h₂, -⟩ := getNextLine_some (l := { l with ring := r₁ }) h₁ (line.length + 2) dst dst.length (by omega) hdst (Nat.le_refl _)
  refine ⟨{ l with ring := r₁ }, l₂, by simpa using hlen, by simp [run, step, Ring.step, e₁], ?_, ?_⟩
  · rw [e₂]
    congr 3
    have ht : ((c :: line ++ d :: w :: rest).drop 1 ++ [v]).take (line.length + 1) = line ++ [d] := by
      simp only [List.cons_append, List.drop_succ_cons, List.drop_zero]
      rw [show line ++ d :: w :: rest ++ [v] = (line ++ [d]) ++ (w :: rest ++ [v]) by simp, List.take_left' (by simp)]
    simp only [show line.length + 2 - 1 = line.length + 1 by omega, ht]
    rw [show min (line.length + 1) (List.drop 1 (c :: line ++ d :: w :: rest) ++ [v]).length = line.length + 1 by simp]
    have hdrop : dst.drop (line.length + 1) = dst[line.length + 1]'(by omega) :: dst.drop (line.length + 2) := List.drop_eq_getElem_cons (by omega)
    have := set_append_len (line ++ [d]) (dst.drop (line.length + 1)) (0 : Byte)
    simp only [List.length_append, List.length_singleton] at this
    rw [this, hdrop, List.set_cons_zero]
    simp
  · have ht : ((c :: line ++ d :: w :: rest).drop 1 ++ [v]).drop (line.length + 2) = rest ++ [v] := by
      simp only [List.cons_append, List.drop_succ_cons, List.drop_zero]
      rw [show line ++ d :: w :: rest ++ [v] = (line ++ [d, w]) ++ (rest ++ [v]) by simp, List.drop_left' (by simp)]
    rw [← ht]
    exact h₂.holds

/-- C168 is false for "no line": a line that has arrived since is not taken with the old length 0. -/
theorem C168_zero_counterexample (hn : 0 < n) (h : Reachable n l) (hq : l.Holds q) (hno : Lines.NoLine l.delims q) (hspace : q.length < n) {d : Byte} (hd : d ∈ l.delims)
    (dst : List Byte) (hdst : n < dst.length) :
    ∃ l₁ l₂, l.lengthOfNextLine = .ok 0 ∧ l.run [.ring (.push d false)] = .ok l₁ ∧ l₁.getNextLine dst dst.length (some 0) = .ok ((0, dst), l₁) ∧
      l₁.getNextLine dst dst.length none = .ok ((q.length, q ++ [0] ++ dst.drop (q.length + 1)), l₂) := by
  obtain ⟨q', hq'⟩ := h.rep hn
  obtain rfl := hq'.holds.unique hq
  obtain ⟨r₁, e₁, h₁, -⟩ := hq'.push_space d false hspace
  have hf : Lines.First (LineBuf.mk r₁ l.delims).delims (q' ++ [d]) q' [] := ⟨d, hd, rfl, hno⟩
  obtain ⟨l₂, e₂, h₂, -⟩ := getNextLine_first (l := { l with ring := r₁ }) h₁ hf (.inl rfl) dst dst.length (by omega) (Nat.le_refl _)
  refine ⟨{ l with ring := r₁ }, l₂, length_none hq' hno, by simp [run, step, Ring.step, e₁], ?_, e₂⟩
  unfold getNextLine
  simp only [discovered_some (l := { l with ring := r₁ }) h₁, res_bind_ok]
  rfl

/-! ### Examples -/

/-- "ab\n" is found, "cd" pushed, then taken. -/
example : ((do
    let l ← create .release 5 [10]
    let (_, l) ← l.pushStr [97, 98, 10]
    let len ← l.lengthOfNextLine
    let (_, l) ← l.pushStr [99, 100]
    l.getNextLine [1, 1, 1, 1] 4 (some len)).map fun (p : (Nat × List Byte) × LineBuf) => p.1) = .ok (2, [97, 98, 0, 1]) := rfl

/-- The same with a rollover. -/
example : ((do
    let l ← create .release 5 [10]
    let (_, l) ← l.pushStr [97, 98, 10, 99, 100]
    let len ← l.lengthOfNextLine
    let l ← l.step (.ring (.push 101 true))
    l.getNextLine [1, 1, 1, 1] 4 (some len)).map fun (p : (Nat × List Byte) × LineBuf) => p.1) = .ok (2, [98, 10, 0, 1]) := rfl

/-- A length above what is in the buffer. -/
example : ((do
    let l ← create .release 5 [10]
    let (_, l) ← l.pushStr [97, 98]
    l.getNextLine [1, 1, 1, 1, 1] 5 (some 5)).map fun (p : (Nat × List Byte) × LineBuf) => (p.1, p.2.ring.usedSpace)) = .ok ((4, [97, 98, 1, 1, 0]), 0) := rfl

example : ∀ op ∈ ([.ring (.pushMany [99, 100] false), .ring .usedSpace] : List Op), Keeps op := by simp [Keeps]

end Spine.LineBuf
