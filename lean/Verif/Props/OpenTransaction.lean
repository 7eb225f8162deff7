import Verif.Props.Stream
import Verif.Props.LineBuffer
/-!
# Property C134: the line of an open transaction

`Transaction::incoming()` returns a `std::string_view` into the storage of the input buffer. Between
opening and ending the transaction the program may receive and send more data through the same buffered
stream.
-/

namespace Spine

open BufStream
open Ring hiding Op

variable {σ : Type} {S : Stream σ}

/-- Calls that neither take nor drop a line: data arrives, is received, written and sent. -/
def BufStream.Op.KeepsLines : Op σ → Prop
  | .getNextLine _ _ _ => False
  | .dropNextLine _ => False
  | _ => True

namespace OpenTransaction

theorem bind_ok {α β : Type} {x : Res α} {f : α → Res β} {y : β} :
    (x >>= f) = .ok y ↔ ∃ a, x = .ok a ∧ f a = .ok y := by
  cases x <;> simp

/-- The first line of the input buffer is `line`, it starts at storage position `a`, and nothing has been
overwritten. -/
structure Kept (n m : Nat) (D : List Byte) (a : Nat) (line : List Byte) (s : BufStream σ) : Prop where
  inv : ∃ q p rest, Inv n m s q p ∧ Lines.First D q line rest
  tail : s.input.ring.tail = a
  none : s.input.ring.overwritten = 0
  delims : s.input.delims = D

theorem push_tail {n : Nat} {r r' : Ring Byte} {q : List Byte} (h : Rep n r q) {v : Byte} {ro d : Bool}
    (hq : q.length < n) (e : r.push v ro = .ok (d, r')) : r'.tail = r.tail := by
  have hf : r.isFull = false := by rw [h.fullIff]; simp; omega
  unfold push at e
  simp only [hf, Bool.false_and, Bool.false_eq_true, if_false, res_pure] at e
  obtain ⟨buf, -, e⟩ := bind_ok.mp e
  obtain ⟨hd, -, e⟩ := bind_ok.mp e
  split at e <;> cases e <;> rfl

variable {n m : Nat} {D : List Byte} {a : Nat} {line : List Byte}

theorem pullLoop_kept : ∀ (fuel : Nat) {s : BufStream σ} (c : Byte) (k : Nat), Kept n m D a line s →
    ∀ {x}, s.pullLoop S fuel c k = .ok x → Kept n m D a line x.2
  | 0, s, c, k, h, x, e => by cases e
  | fuel + 1, s, c, k, h, x, e => by
    obtain ⟨⟨q, p, rest, hi, hf⟩, ht, ho, hd⟩ := h
    unfold pullLoop at e
    split at e
    · cases e; exact ⟨⟨q, p, rest, hi, hf⟩, ht, ho, hd⟩
    · obtain ⟨b, eb⟩ := pullStop_ok hi.input.1 c
      have hb := pullStop_iff hi.input.1 eb
      simp only [eb, res_bind_ok] at e
      cases b with
      | true => cases e; exact ⟨⟨q, p, rest, hi, hf⟩, ht, ho, hd⟩
      | false =>
        have hq : q.length < n := by
          have hle := hi.input.1.qle
          by_contra hc
          have := hb.mpr ⟨by omega, .inr ⟨ho, by rw [hd]; exact hf.not_noLine⟩⟩
          cases this
        cases hr : S.read s.stream with
        | error f => simp [hr] at e
        | ok y =>
          obtain ⟨v, st⟩ := y
          simp only [hr, res_bind_ok, res_pure] at e
          cases v with
          | none => cases e; exact ⟨⟨q, p, rest, ⟨hi.input, hi.output⟩, hf⟩, ht, ho, hd⟩
          | some v =>
            obtain ⟨r', ep, h', o'⟩ := hi.input.1.push_space v true hq
            simp only [ep, res_bind_ok] at e
            refine pullLoop_kept fuel (s := ⟨⟨r', s.input.delims⟩, s.output, st⟩) v (k + 1) ⟨⟨_, p, rest ++ [v], ⟨⟨h', ?_⟩, hi.output⟩, hf.append [v]⟩, ?_, ?_, hd⟩ e
            · rw [o', ho]; simp
            · exact (push_tail hi.input.1 hq ep).trans ht
            · exact o'.trans ho

theorem pushLoop_input : ∀ (fuel : Nat) {s : BufStream σ} (k : Nat) {x}, s.pushLoop S fuel k = .ok x →
    x.2.input = s.input
  | 0, s, k, x, e => by cases e
  | fuel + 1, s, k, x, e => by
    unfold pushLoop at e
    split at e
    · cases e; rfl
    · obtain ⟨y, -, e⟩ := bind_ok.mp e
      obtain ⟨v, r⟩ := y
      cases v with
      | none => cases e; rfl
      | some v =>
        obtain ⟨z, -, e⟩ := bind_ok.mp e
        obtain ⟨d, st⟩ := z
        cases d with
        | false => cases e; rfl
        | true => exact (pushLoop_input fuel (s := ⟨s.input, ⟨r, s.output.delims⟩, st⟩) (k + 1) e).trans rfl

theorem Kept.same {s s' : BufStream σ} (h : Kept n m D a line s) (op : Op σ) (e : s.step S op = .ok s')
    (hin : s'.input = s.input) : Kept n m D a line s' := by
  obtain ⟨⟨q, p, rest, hi, hf⟩, ht, ho, hd⟩ := h
  obtain ⟨q', p', hi'⟩ := step_inv hi op e
  have : q' = q := by
    have h1 := hi'.input.1.holds
    rw [hin] at h1
    exact h1.unique hi.input.1.holds
  subst this
  exact ⟨⟨q', p', rest, hi', hf⟩, by rw [hin]; exact ht, by rw [hin]; exact ho, by rw [hin]; exact hd⟩

theorem Kept.step {s s' : BufStream σ} (h : Kept n m D a line s) (op : Op σ) (hop : op.KeepsLines)
    (e : s.step S op = .ok s') : Kept n m D a line s' := by
  cases op with
  | env st => exact h.same _ e (by cases e; rfl)
  | pull fuel =>
    obtain ⟨x, ex, e⟩ := bind_ok.mp e
    cases e
    exact pullLoop_kept fuel 0 0 h ex
  | push fuel =>
    refine h.same _ e ?_
    obtain ⟨x, ex, e⟩ := bind_ok.mp e
    cases e
    exact pushLoop_input fuel 0 ex
  | write v ro =>
    refine h.same _ e ?_
    obtain ⟨x, ex, e⟩ := bind_ok.mp e
    obtain ⟨y, -, ex⟩ := bind_ok.mp ex
    cases ex; cases e; rfl
  | writeMany vs ro =>
    refine h.same _ e ?_
    obtain ⟨x, ex, e⟩ := bind_ok.mp e
    obtain ⟨y, -, ex⟩ := bind_ok.mp ex
    cases ex; cases e; rfl
  | outputDropLast k =>
    refine h.same _ e ?_
    obtain ⟨x, ex, e⟩ := bind_ok.mp e
    obtain ⟨y, -, ex⟩ := bind_ok.mp ex
    cases ex; cases e; rfl
  | outputDropFirst k =>
    refine h.same _ e ?_
    obtain ⟨x, ex, e⟩ := bind_ok.mp e
    obtain ⟨y, -, ex⟩ := bind_ok.mp ex
    cases ex; cases e; rfl
  | getNextLine _ _ _ => exact hop.elim
  | dropNextLine _ => exact hop.elim

theorem Kept.run : ∀ (ops : List (Op σ)) {s s' : BufStream σ}, Kept n m D a line s →
    (∀ op ∈ ops, op.KeepsLines) → s.run S ops = .ok s' → Kept n m D a line s'
  | [], s, s', h, _, e => by cases e; exact h
  | op :: ops, s, s', h, hops, e => by
    obtain ⟨s₁, e₁, e⟩ := bind_ok.mp e
    exact Kept.run ops (h.step op (hops op (by simp)) e₁) (fun o ho => hops o (by simp [ho])) e

/-- What a view of the first line shows. -/
theorem view_shows {l : LineBuf} {q rest : List Byte} (h : Rep n l.ring q) (hf : Lines.First l.delims q line rest) :
    l.readView ⟨l.ring.tail, line.length⟩ =
      if l.ring.tail + line.length ≤ n then .ok line else .error .ub := by
  unfold LineBuf.readView
  rw [h.len]
  have hlt := h.tailLt
  split
  · rename_i hle
    congr 1
    simp only at hle ⊢
    obtain ⟨d, -, he, -⟩ := hf
    apply List.ext_getElem?
    intro i
    by_cases hi : i < line.length
    · have hs := h.slots i (by rw [he]; simp; omega)
      have hwi : wrap n (l.ring.tail + i) = l.ring.tail + i := by unfold wrap; rw [if_pos (by omega)]
      rw [hwi] at hs
      rw [List.getElem?_take_of_lt hi, List.getElem?_drop, hs, List.getElem?_eq_getElem hi]
      congr 1
      simp only [he]
      rw [List.getElem_append_left hi]
    · rw [List.getElem?_eq_none (by simp; omega), List.getElem?_eq_none (by omega)]
  · rfl

theorem new_view {s : BufStream σ} {q p rest : List Byte} (h : Inv n m s q p)
    (hf : Lines.First s.input.delims q line rest) (b : Build) :
    Transaction.new b s = .ok (some ⟨true, some ⟨s.input.ring.tail, line.length⟩, 0, false⟩) := by
  obtain ⟨v, e, hs, hv⟩ := Transaction.new_some h hf b
  have hpos : 0 < q.length := by
    obtain ⟨d, -, he, -⟩ := hf
    rw [he]; simp; omega
  have hw : wrap n s.input.ring.tail = s.input.ring.tail := by
    have := h.input.1.tailLt
    unfold wrap; simp [this]
  have hd := LineBuf.discovered_first h.input.1 hf (d := none) (.inl rfl)
  unfold LineBuf.getNextLineView at hv
  simp [hd, h.input.1.peekPtr hpos, hw] at hv
  rw [e, ← hv]

end OpenTransaction

open OpenTransaction Transaction

/-- **C134**, the part that holds: a transaction was opened and its line read while nothing in the input
buffer had been overwritten. However much is received, written and sent afterwards, as long as no line is
taken or dropped, `incoming()` shows the same text, this text is still the first line of the input buffer,
and `commit()` drops exactly this line. Missing: transactions opened on a buffer with overwritten
bytes, see below. -/
theorem C134_line_stays_partial (n m : Nat) (hn : 0 < n) (hm : 0 < m) (s : BufStream σ) (h : Reachable S n m s)
    (ho : s.input.ring.overrunSpace = 0) (b : Build) (t : Transaction) (shown : List Byte)
    (et : Transaction.new b s = .ok (some t)) (es : t.incoming b s = .ok shown)
    (ops : List (Op σ)) (hops : ∀ op ∈ ops, op.KeepsLines) (s' : BufStream σ) (e : s.run S ops = .ok s') :
    t.incoming b s' = .ok shown ∧
    ∃ q' d rest', s'.input.Holds q' ∧ d ∈ s'.input.delims ∧ (∀ c ∈ shown, c ∉ s'.input.delims) ∧
      q' = shown ++ d :: rest' ∧
      ∃ t'' s'', t.commit b s' = .ok (t'', s'') ∧ s''.input.Holds rest' ∧ s''.output = s'.output := by
  obtain ⟨q, p, hi⟩ := h.inv hn hm
  rcases Lines.first_or_none s.input.delims q with hno | ⟨line, rest, hf⟩
  · rw [new_none hi hno b] at et; cases et
  · rw [new_view hi hf b] at et
    cases et
    have hs := view_shows hi.input.1 hf
    have hb : ∀ x : BufStream σ, Transaction.incoming b ⟨true, some ⟨s.input.ring.tail, line.length⟩, 0, false⟩ x =
        x.input.readView ⟨s.input.ring.tail, line.length⟩ := by
      intro x; unfold incoming; cases b <;> simp [spnAssert]
    rw [hb, hs] at es
    have hk : Kept n m s.input.delims s.input.ring.tail line s := ⟨⟨q, p, rest, hi, hf⟩, rfl, ho, rfl⟩
    obtain ⟨⟨q', p', rest', hi', hf'⟩, ht', ho', hd'⟩ := hk.run ops hops e
    split at es
    · rename_i hle
      cases es
      have hs' := view_shows hi'.input.1 (by rw [hd']; exact hf')
      rw [ht', if_pos hle] at hs'
      refine ⟨(hb s').trans hs', ?_⟩
      obtain ⟨s'', ec, hi'', hout, -, -⟩ := commit_first b
        ⟨true, some ⟨s.input.ring.tail, shown.length⟩, 0, false⟩ hi' rfl rfl (by rw [hd']; exact hf')
      obtain ⟨d, hdm, he, hc⟩ := hf'
      exact ⟨q', d, rest', hi'.input.1.holds, by rw [hd']; exact hdm, by rw [hd']; exact hc, he, _, s'', ec,
        hi''.input.1.holds, hout⟩
    · cases es

/-- The code violates C134 in general: whenever a transaction is opened on an input buffer (of more than one
byte) in which bytes were overwritten since the last one was taken, the buffer is full and the next received
byte replaces the first character of the line that the transaction shows. -/
theorem C134_overwritten_counterexample (R : σ → List Byte → List Byte → Nat → Prop) (hS : S.Lossless R)
    (n m : Nat) (hn : 0 < n) (hm : 0 < m) (s : BufStream σ) (h : Reachable S n m s)
    (ho : s.input.ring.overrunSpace ≠ 0) (hnul : (0 : Byte) ∉ s.input.delims) (b : Build) (t : Transaction)
    (c : Byte) (shown : List Byte)
    (et : Transaction.new b s = .ok (some t)) (es : t.incoming b s = .ok (c :: shown))
    (x : Byte) (outq : List Byte) (room : Nat) (hR : R s.stream [x] outq room) (fuel : Nat) :
    ∃ s', s.pullInData S (fuel + 2) = .ok (1, s') ∧ t.incoming b s' = .ok (x :: shown) := by
  obtain ⟨q, p, hi⟩ := h.inv hn hm
  have hq : q.length = n := hi.input.2 ho
  rcases Lines.first_or_none s.input.delims q with hno | ⟨line, rest, hf⟩
  · rw [new_none hi hno b] at et; cases et
  · rw [new_view hi hf b] at et
    cases et
    have hb : ∀ x : BufStream σ, Transaction.incoming b ⟨true, some ⟨s.input.ring.tail, line.length⟩, 0, false⟩ x =
        x.input.readView ⟨s.input.ring.tail, line.length⟩ := by
      intro x; unfold incoming; cases b <;> simp [spnAssert]
    rw [hb, view_shows hi.input.1 hf] at es
    split at es
    · rename_i hle
      cases es
      obtain ⟨st, er, hR'⟩ := hS.read hR
      have hav : S.available s.stream ≠ 0 := by rw [Ne, hS.available hR]; simp
      have hav' : S.available st = 0 := (hS.available hR').mpr rfl
      obtain ⟨st1, e1⟩ := pullStop_ok hi.input.1 0
      have hst : st1 = false := by
        have := pullStop_iff hi.input.1 e1
        cases st1 with
        | false => rfl
        | true =>
          rcases (this.mp rfl).2 with h0 | ⟨h0, -⟩
          · exact absurd h0 hnul
          · exact absurd h0 ho
      subst hst
      obtain ⟨r', ep, h', -⟩ := hi.input.1.push_rollover x hq
      have hbuf : r'.buf = s.input.ring.buf.set s.input.ring.tail x := by
        have hht : s.input.ring.head = s.input.ring.tail := by
          have := hi.input.1.tailLt
          rw [hi.input.1.headEq, hq]; unfold wrap; split <;> omega
        unfold Ring.push at ep
        simp only [Bool.not_true, Bool.and_false, Bool.false_eq_true, if_false, res_pure] at ep
        obtain ⟨buf, eb, ep⟩ := bind_ok.mp ep
        obtain ⟨hd, -, ep⟩ := bind_ok.mp ep
        have : buf = s.input.ring.buf.set s.input.ring.tail x := by
          rw [hht] at eb
          have := hi.input.1.tailLt
          rw [wr_ok (by rw [hi.input.1.len]; exact this)] at eb
          cases eb; rfl
        subst this
        split at ep
        · cases ep; rfl
        · split at ep
          · obtain ⟨tl, -, ep⟩ := bind_ok.mp ep
            cases ep; rfl
          · cases ep; rfl
      refine ⟨⟨⟨r', s.input.delims⟩, s.output, st⟩, ?_, ?_⟩
      · unfold pullInData
        simp [pullLoop, hav, e1, er, ep, hav']
      · rw [hb]
        have hs := view_shows hi.input.1 hf
        rw [if_pos hle] at hs
        unfold LineBuf.readView at hs ⊢
        simp only [hbuf, List.length_set]
        split at hs
        · rename_i hle'
          rw [if_pos hle']
          have hs' := Except.ok.inj hs
          have hlt : s.input.ring.tail < s.input.ring.buf.length := by
            rw [hi.input.1.len]; exact hi.input.1.tailLt
          have hdrop : (s.input.ring.buf.set s.input.ring.tail x).drop s.input.ring.tail =
              x :: s.input.ring.buf.drop (s.input.ring.tail + 1) := by
            rw [List.drop_eq_getElem_cons (by simpa using hlt)]
            simp [List.drop_set]
          rw [List.drop_eq_getElem_cons hlt] at hs'
          simp only [List.length_cons, List.take_succ_cons, List.cons.injEq] at hs'
          rw [hdrop]
          simp only [List.length_cons, List.take_succ_cons, hs'.2]
        · cases hs
    · cases es

/-- A device with an input buffer of 4 bytes receives `first`, opens a transaction and reads its line, receives
`second`, reads the line again, commits, and looks at the next line. -/
def openTransactionStory (first second : List Byte) : Res (List Byte × List Byte × List Byte) := do
  let s ← Device.create .debug 16 16 4 4 [10]
  let (_, stream) ← s.stream.inject first
  let (_, s) ← ({ s with stream } : BufStream Mock).pullInData Mock.iface 20
  match ← Transaction.new .debug s with
  | none => .error .fuel
  | some t =>
    let before ← t.incoming .debug s
    let (_, stream) ← s.stream.inject second
    let (_, s) ← ({ s with stream } : BufStream Mock).pullInData Mock.iface 20
    let after ← t.incoming .debug s
    let (_, s) ← t.commit .debug s
    match ← Transaction.new .debug s with
    | none => return (before, after, [])
    | some t => return (before, after, ← t.incoming .debug s)

/-- After `"wxyzabc\n"` the buffer holds `"abc\n"` and the transaction shows `"abc"`; when `"qrst\n"` is received
it shows `"\nrs"`, and `commit()` drops the line `"rst"`, which was never shown: there is no next line. -/
theorem C134_wrong_line_counterexample :
    openTransactionStory [119, 120, 121, 122, 97, 98, 99, 10] [113, 114, 115, 116, 10] =
      .ok ([97, 98, 99], [10, 114, 115], []) := rfl

/-- Without overwriting, the transaction keeps showing `"a"`, and `"b"` follows. -/
example : openTransactionStory [97, 10] [98, 10, 113, 10] = .ok ([97], [97], [98]) := rfl

end Spine
