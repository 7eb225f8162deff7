import Verif.Model.RingOwn
import Verif.Props.LineBuffer
import Verif.Props.OpenTransaction
/-!
# C162: pushing the elements of a ring buffer into the same ring buffer
-/

namespace Spine

namespace Ring

variable {α : Type}

/-- Nothing that is still to be read is overwritten. -/
def Apart (cap head s n : Nat) : Prop := ∀ j j', j < j' → j' < n → (head + j) % cap ≠ s + j'

theorem push_frame {r r' : Ring α} {v : α} {ro : Bool} (h : r.push v ro = .ok (true, r')) :
    r'.buf = r.buf.set r.head v ∧ r'.head = (r.head + 1) % r.buf.length := by
  unfold push at h
  split at h
  · cases h
  · unfold wr umod at h
    split at h
    · split at h
      · simp at h
      · simp only [res_bind_ok] at h
        split at h
        · cases h; exact ⟨rfl, rfl⟩
        · split at h <;> (cases h; exact ⟨rfl, rfl⟩)
    · simp at h

theorem pushOwn_eq {cap : Nat} (ro : Bool) : ∀ (n : Nat) {r : Ring α} {s : Nat}, r.buf.length = cap → Apart cap r.head s n → s + n ≤ cap →
    r.pushOwn s n ro = r.pushMany ((r.buf.drop s).take n) ro
  | 0, r, s, _, _, _ => by simp [pushOwn, pushMany]
  | n + 1, r, s, hcap, ha, hn => by
    have hs : s < r.buf.length := by omega
    rw [List.drop_eq_getElem_cons hs, List.take_succ_cons, pushOwn, pushMany, pushSlot]
    by_cases hf : (r.isFull && !ro) = true
    · rw [if_pos hf]
      simp only [push, if_pos hf, res_bind_ok, res_pure]
      rfl
    · rw [if_neg hf, rd_lt hs, res_bind_ok]
      cases hp : r.push r.buf[s] ro with
      | error e => simp
      | ok x =>
        obtain ⟨d, r'⟩ := x
        cases d with
        | false => rfl
        | true =>
          obtain ⟨hb, hh⟩ := push_frame hp
          have key := pushOwn_eq (cap := cap) ro n (r := r') (s := s + 1) (by rw [hb, List.length_set, hcap]) (by
            intro j j' h1 h2
            have := ha (j + 1) (j' + 1) (by omega) (by omega)
            rw [hh, hcap, Nat.mod_add_mod]
            rw [show r.head + (j + 1) = r.head + 1 + j by omega, show s + (j' + 1) = s + 1 + j' by omega] at this
            exact this) (by omega)
          simp only [res_bind_ok, Bool.not_true, Bool.false_eq_true, if_false]
          rw [key]
          have : (r'.buf.drop (s + 1)).take n = (r.buf.drop (s + 1)).take n := by
            rw [hb]
            apply List.ext_getElem (by simp)
            intro j h1 h2
            simp only [List.getElem_take, List.getElem_drop]
            simp only [List.length_take, List.length_drop] at h2
            rw [List.getElem_set_ne]
            have := ha 0 (j + 1) (by omega) (by omega)
            intro hc
            apply this
            rw [Nat.add_zero, hc, Nat.mod_eq_of_lt (by omega)]
            omega
          rw [this]

theorem Rep.slice {cap : Nat} {r : Ring α} {q : List α} (h : Rep cap r q) {i n : Nat} (hin : i + n ≤ q.length) (hn : 0 < n)
    (hp : wrap cap (r.tail + i) + n ≤ cap) : (r.buf.drop (wrap cap (r.tail + i))).take n = (q.drop i).take n := by
  have hlen := h.len
  apply List.ext_getElem (by simp; omega)
  intro j h1 h2
  simp only [List.getElem_take, List.getElem_drop]
  simp only [List.length_take, List.length_drop] at h2
  have := h.slots (i + j) (by omega)
  have hw : wrap cap (r.tail + (i + j)) = wrap cap (r.tail + i) + j := by
    have := h.tailLt
    have := h.qle
    unfold wrap at hp ⊢
    split at hp <;> split <;> omega
  rw [hw] at this
  rw [List.getElem?_eq_getElem (by omega)] at this
  exact Option.some.inj this

theorem Rep.apart {cap : Nat} {r : Ring α} {q : List α} (h : Rep cap r q) {i n : Nat} (hin : i + n ≤ q.length)
    (hp : wrap cap (r.tail + i) + n ≤ cap) : Apart cap r.head (wrap cap (r.tail + i)) n := by
  intro j j' h1 h2
  have := h.tailLt
  have := h.qle
  have hl := h.headLt
  rw [mod_eq_wrap (by omega), h.headEq]
  unfold wrap at hp ⊢
  split at hp <;> split <;> split <;> omega

theorem pushOwn_outside {cap : Nat} (ro : Bool) : ∀ (k : Nat) {r : Ring α} {q : List α} {s n : Nat}, Rep cap r q → s + k = cap → k < n →
    (ro = true ∨ q.length + k < cap) → r.pushOwn s n ro = .error .ub
  | 0, r, q, s, n, h, hs, hn, hro => by
    obtain ⟨n, rfl⟩ : ∃ n', n = n' + 1 := ⟨n - 1, by omega⟩
    have hf : ¬ (r.isFull && !ro) = true := by
      rw [h.fullIff]
      rcases hro with rfl | hq
      · simp
      · simp; omega
    have hrd : rd r.buf s = .error .ub := by
      unfold rd
      rw [List.getElem?_eq_none (by rw [h.len]; omega)]
    rw [pushOwn, pushSlot, if_neg hf, hrd, res_bind_error, res_bind_error]
  | k + 1, r, q, s, n, h, hs, hn, hro => by
    obtain ⟨n, rfl⟩ : ∃ n', n = n' + 1 := ⟨n - 1, by omega⟩
    have hf : ¬ (r.isFull && !ro) = true := by
      rw [h.fullIff]
      rcases hro with rfl | hq
      · simp
      · simp; omega
    have hsl : s < r.buf.length := by rw [h.len]; omega
    rw [pushOwn, pushSlot, if_neg hf, rd_lt hsl, res_bind_ok]
    by_cases hq : q.length < cap
    · obtain ⟨r', e, h', -⟩ := h.push_space r.buf[s] ro hq
      rw [e, res_bind_ok]
      have := pushOwn_outside ro k (n := n) h' (show s + 1 + k = cap by omega) (by omega) (by
        rcases hro with rfl | hq
        · exact .inl rfl
        · right; simp; omega)
      simp [this]
    · obtain rfl : ro = true := by
        rcases hro with h | h
        · exact h
        · omega
      obtain ⟨r', e, h', -⟩ := h.push_rollover r.buf[s] (by have := h.qle; omega)
      rw [e, res_bind_ok]
      have := pushOwn_outside true k (n := n) h' (show s + 1 + k = cap by omega) (by omega) (.inl rfl)
      simp [this]

theorem pop_frame {r r' : Ring α} {v : Option α} (h : r.pop = .ok (v, r')) : r'.buf = r.buf ∧ r'.head = r.head := by
  unfold pop at h
  split at h
  · cases h; exact ⟨rfl, rfl⟩
  · simp only [OpenTransaction.bind_ok] at h
    obtain ⟨_, -, _, -, h⟩ := h
    cases h
    exact ⟨rfl, rfl⟩

end Ring

open Ring

theorem LineBuf.dropLoop_frame : ∀ (n : Nat) {r r' : Ring Byte}, LineBuf.dropLoop r n = .ok r' → r'.buf = r.buf ∧ r'.head = r.head
  | 0, r, r', h => by cases h; exact ⟨rfl, rfl⟩
  | n + 1, r, r', h => by
    simp only [LineBuf.dropLoop, OpenTransaction.bind_ok] at h
    obtain ⟨⟨v, r₁⟩, e, h⟩ := h
    obtain ⟨h1, h2⟩ := pop_frame e
    obtain ⟨h3, h4⟩ := LineBuf.dropLoop_frame n h
    exact ⟨h3.trans h1, h4.trans h2⟩

theorem LineBuf.dropNextLine_frame {l l' : LineBuf} {d : Option Nat} {x : Bool} (h : l.dropNextLine d = .ok (x, l')) :
    l'.ring.buf = l.ring.buf ∧ l'.ring.head = l.ring.head := by
  simp only [LineBuf.dropNextLine, OpenTransaction.bind_ok] at h
  obtain ⟨n, -, h⟩ := h
  split at h
  · cases h; exact ⟨rfl, rfl⟩
  · simp only [OpenTransaction.bind_ok] at h
    obtain ⟨r₁, e₁, ⟨v, r₂⟩, e₂, h⟩ := h
    cases h
    obtain ⟨h1, h2⟩ := LineBuf.dropLoop_frame _ e₁
    obtain ⟨h3, h4⟩ := pop_frame e₂
    exact ⟨h3.trans h1, h4.trans h2⟩

variable {α : Type}

/-- **C162**: `n` elements of a ring buffer, from index `i` on, that lie next to each other in the storage, can be pushed into the same ring buffer by their address: the effect is that of pushing a
copy of them, even when the oldest elements are overwritten. -/
theorem C162_own {cap : Nat} (hc : 0 < cap) {r : Ring α} (hr : Ring.Reachable cap r) {q : List α} (hq : r.Holds q) {i n p : Nat} (hin : i + n ≤ q.length) (hn : 0 < n)
    (hp : r.peekPtrAt i = .ok (some p)) (hpn : p + n ≤ cap) :
    (∃ r', r.pushOwn p n false = .ok (min n (cap - q.length), r') ∧ r'.Holds (q ++ ((q.drop i).take n).take (cap - q.length))) ∧
      ∃ r', r.pushOwn p n true = .ok (n, r') ∧ r'.Holds (Queue.newest cap (q ++ (q.drop i).take n)) := by
  obtain ⟨q', h⟩ := hr.rep hc
  obtain rfl := hq.unique h.holds
  rw [h.peekPtr (by omega)] at hp
  obtain rfl : wrap cap (r.tail + i) = p := by simpa using hp
  have ha := h.apart hin hpn
  have hlen : ((q.drop i).take n).length = n := by simp; omega
  rw [pushOwn_eq false n h.len ha hpn, pushOwn_eq true n h.len ha hpn, h.slice hin hn hpn]
  obtain ⟨r₁, e₁, h₁, -⟩ := Rep.pushMany_false ((q.drop i).take n) h
  obtain ⟨r₂, e₂, h₂⟩ := Rep.pushMany_true ((q.drop i).take n) h
  rw [hlen] at e₁ e₂
  exact ⟨⟨r₁, e₁, h₁.holds⟩, r₂, e₂, h₂.holds⟩

/-- **C162**: a line can be moved to the end of a line buffer without a copy, `auto v = *lb.get_next_line_view(); lb.drop_next_line(); lb.push(v);`, if it does not run over the end of the
storage; there is room for its delimiter, too. -/
theorem C162_requeue_partial {cap : Nat} (hc : 0 < cap) {l : LineBuf} (hr : LineBuf.Reachable cap l) {q : List Byte} (hq : l.Holds q) {line rest : List Byte}
    (hf : Lines.First l.delims q line rest) {v : LineBuf.View} (hv : l.getNextLineView none = .ok (some v)) (hin : v.start + v.size ≤ cap) :
    ∃ l₁ l₂, l.dropNextLine none = .ok (true, l₁) ∧ l₁.pushView v = .ok (line.length, l₂) ∧ l₂.Holds (rest ++ line) ∧ l₂.delims = l.delims ∧
      ∀ d, ∃ l₃, l₂.pushStr [d] = .ok (1, l₃) ∧ l₃.Holds (rest ++ line ++ [d]) := by
  obtain ⟨q', h⟩ := hr.rep hc
  obtain rfl := hq.unique h.holds
  obtain ⟨l₁, e₁, h₁, hd₁, -⟩ := LineBuf.dropNextLine_first h hf (.inl rfl)
  obtain ⟨hb, hh⟩ := LineBuf.dropNextLine_frame e₁
  have hq : q.length = line.length + 1 + rest.length := by obtain ⟨d, -, he, -⟩ := hf; rw [he]; simp; omega
  have hle := h.qle
  have hv' : v = ⟨wrap cap (l.ring.tail + 0), line.length⟩ := by
    simp only [LineBuf.getNextLineView, LineBuf.discovered_first h hf (.inl rfl), res_bind_ok] at hv
    rw [if_neg (by omega), h.peekPtr (by omega), res_bind_ok] at hv
    simpa using hv.symm
  subst hv'
  have hin' : 0 + line.length ≤ q.length := by omega
  have hs : l₁.ring.pushOwn (wrap cap (l.ring.tail + 0)) line.length false = l₁.ring.pushMany line false := by
    rw [pushOwn_eq false line.length (by rw [hb]; exact h.len) (by rw [hh]; exact h.apart hin' hin) hin]
    congr 1
    rcases Nat.eq_zero_or_pos line.length with h0 | h0
    · rw [h0, List.length_eq_zero_iff.mp h0]; simp
    · rw [hb, h.slice hin' h0 hin, List.drop_zero]
      obtain ⟨d, -, he, -⟩ := hf
      rw [he]; simp
  obtain ⟨r₂, e₂, h₂, -⟩ := Rep.pushMany_false line h₁
  rw [Nat.min_eq_left (by omega)] at e₂
  rw [List.take_of_length_le (by omega)] at h₂
  refine ⟨l₁, { l₁ with ring := r₂ }, e₁, by simp only [LineBuf.pushView, hs, e₂, res_bind_ok, res_pure], h₂.holds, hd₁, fun d => ?_⟩
  obtain ⟨r₃, e₃, h₃, -⟩ := Rep.pushMany_false [d] h₂
  have hroom : 1 ≤ cap - (rest ++ line).length := by simp; omega
  rw [Nat.min_eq_left (by simpa using hroom)] at e₃
  rw [List.take_of_length_le (by simpa using hroom)] at h₃
  exact ⟨{ l₁ with ring := r₃ }, by simp [LineBuf.pushStr, e₃], h₃.holds⟩

/-- C162 is false for a line that runs over the end of the storage: its view, and so the push, goes outside of the storage. -/
theorem C162_straddles_counterexample {cap : Nat} (hc : 0 < cap) {l : LineBuf} (hr : LineBuf.Reachable cap l) {q : List Byte} (hq : l.Holds q) {line rest : List Byte}
    (hf : Lines.First l.delims q line rest) {v : LineBuf.View} (hv : l.getNextLineView none = .ok (some v)) (hin : cap < v.start + v.size) :
    ∃ l₁, l.dropNextLine none = .ok (true, l₁) ∧ l₁.pushView v = .error .ub := by
  obtain ⟨q', h⟩ := hr.rep hc
  obtain rfl := hq.unique h.holds
  obtain ⟨l₁, e₁, h₁, hd₁, -⟩ := LineBuf.dropNextLine_first h hf (.inl rfl)
  have hq : q.length = line.length + 1 + rest.length := by obtain ⟨d, -, he, -⟩ := hf; rw [he]; simp; omega
  have hle := h.qle
  have hv' : v = ⟨wrap cap (l.ring.tail + 0), line.length⟩ := by
    simp only [LineBuf.getNextLineView, LineBuf.discovered_first h hf (.inl rfl), res_bind_ok] at hv
    rw [if_neg (by omega), h.peekPtr (by omega), res_bind_ok] at hv
    simpa using hv.symm
  subst hv'
  simp only at hin
  have hw : wrap cap (l.ring.tail + 0) < cap := wrap_lt (by have := h.tailLt; omega)
  have := pushOwn_outside false (cap - wrap cap (l.ring.tail + 0)) (n := line.length) h₁ (s := wrap cap (l.ring.tail + 0)) (by omega) (by omega) (by right; omega)
  exact ⟨l₁, e₁, by simp only [LineBuf.pushView, this, res_bind_error]⟩

/-- A ring buffer of 4 elements, full: pushing its first two elements again, with rollover, keeps the newest four. -/
example : (do
    let r ← Ring.create .debug 4 0
    let (_, r) ← r.pushMany [1, 2, 3, 4] false
    let p ← r.peekPtrAt 0
    let (n, r) ← r.pushOwn (p.getD 9) 2 true
    return (n, r.tail, r.buf)) = .ok (2, 2, [1, 2, 3, 4]) := by rfl

/-- A line buffer of 8 characters with the lines `ab` and `c`: the first line is moved to the end. -/
example : (do
    let l ← LineBuf.create .debug 8 [10]
    let (_, l) ← l.pushStr [97, 98, 10, 99, 10]
    let v ← l.getNextLineView none
    let (_, l) ← l.dropNextLine none
    let (n, l) ← l.pushView (v.getD ⟨9, 9⟩)
    let (_, l) ← l.pushStr [10]
    return (n, l.ring.tail, l.ring.buf)) = .ok (2, 3, [97, 98, 10, 99, 10, 97, 98, 10]) := by rfl

/-- The second line of `abcd`, `efgh` in a buffer of 8 characters runs over the end. -/
example : (do
    let l ← LineBuf.create .debug 8 [10]
    let (_, l) ← l.pushStr [97, 98, 99, 100, 10]
    let (_, l) ← l.dropNextLine none
    let (_, l) ← l.pushStr [101, 102, 103, 104, 10]
    let v ← l.getNextLineView none
    let (_, l) ← l.dropNextLine none
    let (n, l) ← l.pushView (v.getD ⟨9, 9⟩)
    return (n, l.ring.tail, l.ring.buf)) = .error .ub := by rfl

end Spine
