import Verif.Model.LineBuffer
import Verif.Spec.Lines
import Verif.Proofs.RingBuffer
/-!
# Lemmas about the line buffer model
-/

namespace Spine
namespace Lines

variable {β : Type} [DecidableEq β]

theorem first_or_none (D : List β) : ∀ q : List β, NoLine D q ∨ ∃ line rest, First D q line rest
  | [] => .inl (by simp [NoLine])
  | c :: q => by
    by_cases hc : c ∈ D
    · exact .inr ⟨[], q, c, hc, rfl, by simp⟩
    · rcases first_or_none D q with h | ⟨line, rest, d, hd, he, hl⟩
      · exact .inl (by
          intro x hx
          rcases List.mem_cons.mp hx with rfl | hx
          · exact hc
          · exact h x hx)
      · refine .inr ⟨c :: line, rest, d, hd, by simp [he], ?_⟩
        intro x hx
        rcases List.mem_cons.mp hx with rfl | hx
        · exact hc
        · exact hl x hx

omit [DecidableEq β] in
theorem First.unique {D q : List β} {l₁ r₁ l₂ r₂ : List β} (h₁ : First D q l₁ r₁) (h₂ : First D q l₂ r₂) :
    l₁ = l₂ ∧ r₁ = r₂ := by
  obtain ⟨d₁, m₁, e₁, n₁⟩ := h₁
  obtain ⟨d₂, m₂, e₂, n₂⟩ := h₂
  rw [e₁] at e₂
  clear e₁
  induction l₁ generalizing l₂ with
  | nil =>
    cases l₂ with
    | nil => simp at e₂; exact ⟨rfl, e₂.2⟩
    | cons a l₂ =>
      simp at e₂
      exact absurd m₁ (e₂.1 ▸ n₂ a (by simp))
  | cons a l₁ ih =>
    cases l₂ with
    | nil =>
      simp at e₂
      exact absurd m₂ (e₂.1 ▸ n₁ a (by simp))
    | cons b l₂ =>
      simp at e₂
      obtain ⟨rfl, e₂⟩ := e₂
      obtain ⟨rfl, rfl⟩ := ih (fun c hc => n₁ c (by simp [hc])) e₂ (fun c hc => n₂ c (by simp [hc]))
      exact ⟨rfl, rfl⟩

omit [DecidableEq β] in
theorem First.not_noLine {D q l r : List β} (h : First D q l r) : ¬ NoLine D q := by
  obtain ⟨d, m, e, -⟩ := h
  intro hn
  exact hn d (by simp [e]) m

omit [DecidableEq β] in
/-- Appending bytes does not change the first line. -/
theorem First.append {D q l r : List β} (h : First D q l r) (s : List β) : First D (q ++ s) l (r ++ s) := by
  obtain ⟨d, m, e, n⟩ := h
  exact ⟨d, m, by simp [e], n⟩

end Lines

theorem set_append_len {γ : Type} (a b : List γ) (v : γ) : (a ++ b).set a.length v = a ++ b.set 0 v := by
  induction a with
  | nil => rfl
  | cons x a ih => simp [ih]

namespace LineBuf

open Ring

variable {n : Nat} {l : LineBuf} {q : List Byte}

theorem lengthLoop_first (h : Rep n l.ring q) {line rest : List Byte} (hf : Lines.First l.delims q line rest) :
    ∀ (k i fuel : Nat), i + k = line.length → k < fuel → l.lengthLoop i fuel = .ok (line.length + 1) := by
  obtain ⟨d, hd, he, hl⟩ := hf
  intro k
  induction k with
  | zero =>
    intro i fuel hi hfuel
    cases fuel with
    | zero => omega
    | succ fuel =>
      obtain rfl : i = line.length := by omega
      have : q[line.length]? = some d := by rw [he, List.getElem?_append_right (by omega)]; simp
      simp [lengthLoop, h.peek, this, isDelim, hd]
  | succ k ih =>
    intro i fuel hi hfuel
    cases fuel with
    | zero => omega
    | succ fuel =>
      have hil : i < line.length := by omega
      have : q[i]? = some line[i] := by rw [he, List.getElem?_append_left hil, List.getElem?_eq_getElem hil]
      have hnd : line[i] ∉ l.delims := hl _ (List.getElem_mem hil)
      simp [lengthLoop, h.peek, this, isDelim, hnd]
      exact ih (i + 1) fuel (by omega) (by omega)

theorem lengthLoop_none (h : Rep n l.ring q) (hn : Lines.NoLine l.delims q) :
    ∀ (fuel i : Nat), l.lengthLoop i fuel = .ok 0 := by
  intro fuel
  induction fuel with
  | zero => intro i; rfl
  | succ fuel ih =>
    intro i
    cases hq : q[i]? with
    | none => simp [lengthLoop, h.peek, hq]
    | some v =>
      have hnd : v ∉ l.delims := hn v (List.mem_of_getElem? hq)
      simp [lengthLoop, h.peek, hq, isDelim, hnd, ih]

theorem length_first (h : Rep n l.ring q) {line rest : List Byte} (hf : Lines.First l.delims q line rest) :
    l.lengthOfNextLine = .ok (line.length + 1) := by
  have hf' := hf
  obtain ⟨d, hd, he, hl⟩ := hf
  unfold lengthOfNextLine
  exact lengthLoop_first h hf' line.length 0 _ (by omega) (by rw [h.used, he]; simp)

theorem length_none (h : Rep n l.ring q) (hn : Lines.NoLine l.delims q) : l.lengthOfNextLine = .ok 0 :=
  lengthLoop_none h hn _ _

theorem discovered_first (h : Rep n l.ring q) {line rest : List Byte} (hf : Lines.First l.delims q line rest)
    {d : Option Nat} (hd : d = none ∨ d = some (line.length + 1)) : l.discovered d = .ok (line.length + 1) := by
  unfold discovered
  rw [length_first h hf]
  rcases hd with rfl | rfl <;> simp

theorem getNextLine_first' (h : Rep n l.ring q) {line rest : List Byte} (hf : Lines.First l.delims q line rest)
    {d : Option Nat} (hd : d = none ∨ d = some (line.length + 1)) (dst : List Byte) (max : Nat)
    (hm : line.length + 1 ≤ max) (hdst : max ≤ dst.length) :
    ∃ l', l.getNextLine dst max d =
        .ok ((line.length, line ++ [0] ++ dst.drop (line.length + 1)), l') ∧
      Rep n l'.ring rest ∧ l'.delims = l.delims ∧ l'.ring.overwritten = 0 := by
  have hdisc := discovered_first h hf hd
  obtain ⟨c, hc, he, hl⟩ := hf
  subst he
  obtain ⟨r₁, e₁, h₁, -⟩ := Rep.popLoop line.length dst 0 h (by simp) (by omega)
  have h₁' : Rep n r₁ (c :: rest) := by simpa using h₁
  obtain ⟨r₂, e₂, h₂, o₂⟩ := h₁'.pop_some
  refine ⟨{ l with ring := r₂ }, ?_, h₂, rfl, o₂⟩
  unfold getNextLine
  simp only [hdisc, res_bind_ok]
  rw [if_neg (by omega)]
  simp only [Nat.add_sub_cancel, e₁, res_bind_ok, e₂]
  rw [wr_ok (by simp; omega)]
  have hdrop : dst.drop line.length = dst[line.length]'(by omega) :: dst.drop (line.length + 1) :=
    List.drop_eq_getElem_cons (by omega)
  have key : (dst.take 0 ++ (line ++ c :: rest).take line.length ++ dst.drop (0 + line.length)).set line.length 0 =
      line ++ [0] ++ dst.drop (line.length + 1) := by
    rw [Nat.zero_add, hdrop, List.take_zero, List.nil_append, List.take_left', set_append_len]
    · simp only [List.set_cons_zero, List.append_assoc, List.singleton_append]
    · rfl
  rw [key]; rfl

theorem getNextLine_first (h : Rep n l.ring q) {line rest : List Byte} (hf : Lines.First l.delims q line rest)
    {d : Option Nat} (hd : d = none ∨ d = some (line.length + 1)) (dst : List Byte) (max : Nat)
    (hm : line.length + 1 ≤ max) (hdst : max ≤ dst.length) :
    ∃ l', l.getNextLine dst max d =
        .ok ((line.length, line ++ [0] ++ dst.drop (line.length + 1)), l') ∧
      Rep n l'.ring rest ∧ l'.delims = l.delims := by
  obtain ⟨l', e, h', d', -⟩ := getNextLine_first' h hf hd dst max hm hdst
  exact ⟨l', e, h', d'⟩

theorem getNextLine_long (h : Rep n l.ring q) {line rest : List Byte} (hf : Lines.First l.delims q line rest)
    {d : Option Nat} (hd : d = none ∨ d = some (line.length + 1)) (dst : List Byte) (max : Nat)
    (hm : max < line.length + 1) : l.getNextLine dst max d = .ok ((0, dst), l) := by
  unfold getNextLine
  simp only [discovered_first h hf hd, res_bind_ok]
  rw [if_pos (by omega)]; rfl

theorem getNextLine_none (h : Rep n l.ring q) (hn : Lines.NoLine l.delims q) (dst : List Byte) (max : Nat) :
    l.getNextLine dst max none = .ok ((0, dst), l) := by
  unfold getNextLine discovered
  simp [length_none h hn]

theorem dropLoop_rep : ∀ (k : Nat) {r : Ring Byte} {q : List Byte}, Rep n r q → k ≤ q.length →
    ∃ r', dropLoop r k = .ok r' ∧ Rep n r' (q.drop k)
  | 0, r, q, h, _ => ⟨r, rfl, by simpa using h⟩
  | k + 1, r, [], h, hk => by simp at hk
  | k + 1, r, v :: q, h, hk => by
    obtain ⟨r₁, e₁, h₁, -⟩ := h.pop_some
    obtain ⟨r₂, e₂, h₂⟩ := dropLoop_rep k h₁ (by simpa using hk)
    exact ⟨r₂, by simp [dropLoop, e₁, e₂], by simpa using h₂⟩

theorem dropNextLine_first (h : Rep n l.ring q) {line rest : List Byte} (hf : Lines.First l.delims q line rest)
    {d : Option Nat} (hd : d = none ∨ d = some (line.length + 1)) :
    ∃ l', l.dropNextLine d = .ok (true, l') ∧ Rep n l'.ring rest ∧ l'.delims = l.delims ∧
      l'.ring.overwritten = 0 := by
  have hdisc := discovered_first h hf hd
  obtain ⟨c, hc, he, hl⟩ := hf
  subst he
  obtain ⟨r₁, e₁, h₁⟩ := dropLoop_rep line.length h (by simp)
  have h₁' : Rep n r₁ (c :: rest) := by simpa using h₁
  obtain ⟨r₂, e₂, h₂, o₂⟩ := h₁'.pop_some
  refine ⟨{ l with ring := r₂ }, ?_, h₂, rfl, o₂⟩
  unfold dropNextLine
  simp [hdisc, e₁, e₂]

theorem dropNextLine_none (h : Rep n l.ring q) (hn : Lines.NoLine l.delims q) :
    l.dropNextLine none = .ok (false, l) := by
  unfold dropNextLine discovered
  simp [length_none h hn]

end LineBuf
end Spine

namespace Spine.LineBuf

open Ring

theorem popLoop_any {n : Nat} : ∀ (k : Nat) {r : Ring Byte} {q : List Byte} (dst : List Byte) (i : Nat),
    Rep n r q → ∀ {x}, r.popLoop dst i k = .ok x → ∃ q', Rep n x.2 q'
  | 0, r, q, dst, i, h, x, e => by simp only [Ring.popLoop] at e; cases e; exact ⟨q, h⟩
  | k + 1, r, [], dst, i, h, x, e => by
    simp only [Ring.popLoop, h.pop_none, res_bind_ok, res_pure] at e
    exact popLoop_any k dst (i + 1) h e
  | k + 1, r, v :: q, dst, i, h, x, e => by
    obtain ⟨r₁, e₁, h₁, -⟩ := h.pop_some
    simp only [Ring.popLoop, e₁, res_bind_ok] at e
    cases hw : wr dst i v with
    | error f => simp [hw] at e
    | ok dst' =>
      simp only [hw, res_bind_ok] at e
      exact popLoop_any k _ _ h₁ e

theorem pop_any {n : Nat} {r : Ring Byte} {q : List Byte} (h : Rep n r q) :
    ∃ v r' q', r.pop = .ok (v, r') ∧ Rep n r' q' := by
  cases q with
  | nil => exact ⟨none, r, [], h.pop_none, h⟩
  | cons v q =>
    obtain ⟨r', e, h', -⟩ := h.pop_some
    exact ⟨_, r', q, e, h'⟩

theorem dropLoop_any {n : Nat} : ∀ (k : Nat) {r : Ring Byte} {q : List Byte}, Rep n r q →
    ∃ r' q', dropLoop r k = .ok r' ∧ Rep n r' q'
  | 0, r, q, h => ⟨r, q, rfl, h⟩
  | k + 1, r, q, h => by
    obtain ⟨v, r₁, q₁, e₁, h₁⟩ := pop_any h
    obtain ⟨r₂, q₂, e₂, h₂⟩ := dropLoop_any k h₁
    exact ⟨r₂, q₂, by simp [dropLoop, e₁, e₂], h₂⟩

theorem length_any {n : Nat} {l : LineBuf} {q : List Byte} (h : Rep n l.ring q) :
    ∃ k, l.lengthOfNextLine = .ok k := by
  rcases Lines.first_or_none l.delims q with hn | ⟨line, rest, hf⟩
  · exact ⟨_, length_none h hn⟩
  · exact ⟨_, length_first h hf⟩

theorem step_any {n : Nat} {l : LineBuf} {q : List Byte} (h : Rep n l.ring q) (op : Op) {l' : LineBuf}
    (e : l.step op = .ok l') : ∃ q', Rep n l'.ring q' := by
  cases op with
  | ring op =>
    cases hs : l.ring.step op with
    | error f => simp [step, hs] at e
    | ok x =>
      simp only [step, hs, res_bind_ok, res_pure] at e
      cases e
      exact h.step_any op hs
  | setDelims ds => simp only [step, res_pure] at e; cases e; exact ⟨q, h⟩
  | getNextLine dst m d =>
    obtain ⟨k, hk⟩ := length_any h
    simp only [step, getNextLine, discovered, hk, res_bind_ok, res_pure] at e
    split at e
    · cases e; exact ⟨q, h⟩
    · cases hp : l.ring.popLoop dst 0 (d.getD k - 1) with
      | error f => simp [hp] at e
      | ok x =>
        obtain ⟨dst', r₁⟩ := x
        obtain ⟨q₁, h₁⟩ := popLoop_any _ _ _ h hp
        obtain ⟨v, r₂, q₂, e₂, h₂⟩ := pop_any h₁
        simp only [hp, res_bind_ok, e₂] at e
        cases hw : wr dst' (d.getD k - 1) 0 with
        | error f => simp [hw] at e
        | ok dst'' =>
          simp only [hw, res_bind_ok] at e
          cases e
          exact ⟨q₂, h₂⟩
  | dropNextLine d =>
    obtain ⟨k, hk⟩ := length_any h
    simp only [step, dropNextLine, discovered, hk, res_bind_ok, res_pure] at e
    split at e
    · cases e; exact ⟨q, h⟩
    · obtain ⟨r₁, q₁, e₁, h₁⟩ := dropLoop_any (d.getD k - 1) h
      obtain ⟨v, r₂, q₂, e₂, h₂⟩ := pop_any h₁
      simp only [e₁, res_bind_ok, e₂] at e
      cases e
      exact ⟨q₂, h₂⟩

theorem create_rep {n : Nat} (hn : 0 < n) (b : Build) (delims : List Byte) :
    ∃ l, create b n delims = .ok l ∧ Rep n l.ring [] ∧ l.delims = delims ∧ l.ring.overwritten = 0 := by
  obtain ⟨r, e, h, o⟩ := Rep.create hn b (0 : Byte)
  exact ⟨{ ring := r, delims }, by simp [create, e], h, rfl, o⟩

theorem Reachable.rep {n : Nat} {l : LineBuf} (hn : 0 < n) (h : Reachable n l) : ∃ q, Rep n l.ring q := by
  obtain ⟨b, delims, l₀, ops, e₀, e⟩ := h
  obtain ⟨l₁, e₁, h₁, -⟩ := create_rep hn b delims
  rw [e₀] at e₁
  cases e₁
  clear e₀
  have : ∀ (ops : List Op) {l₀ : LineBuf} {q : List Byte}, Rep n l₀.ring q → l₀.run ops = .ok l →
      ∃ q, Rep n l.ring q := by
    intro ops
    induction ops with
    | nil => intro l₀ q h e; simp only [run] at e; cases e; exact ⟨q, h⟩
    | cons op ops ih =>
      intro l₀ q h e
      simp only [run] at e
      cases hs : l₀.step op with
      | error f => simp [hs] at e
      | ok l₁ =>
        simp only [hs, res_bind_ok] at e
        obtain ⟨q₁, h₁⟩ := step_any h op hs
        exact ih h₁ e
  exact this ops h₁ e

end Spine.LineBuf

namespace Spine

theorem split_total (D : List Byte) : ∀ (k : Nat) (q : List Byte), q.length ≤ k → ∃ lines tail, Lines.Split D q lines tail := by
  intro k
  induction k with
  | zero =>
    intro q hq
    have : q = [] := List.length_eq_zero_iff.mp (by omega)
    exact ⟨[], q, .done (by simp [this, Lines.NoLine])⟩
  | succ k ih =>
    intro q hq
    rcases Lines.first_or_none D q with hno | ⟨line, rest, hf⟩
    · exact ⟨[], q, .done hno⟩
    · have hl : rest.length ≤ k := by
        obtain ⟨d, -, he, -⟩ := hf
        rw [he] at hq
        simp at hq
        omega
      obtain ⟨lines, tail, hs⟩ := ih rest hl
      exact ⟨_, _, .line hf hs⟩

theorem split_total' (D q : List Byte) : ∃ lines tail, Lines.Split D q lines tail :=
  split_total D q.length q (Nat.le_refl _)

end Spine
