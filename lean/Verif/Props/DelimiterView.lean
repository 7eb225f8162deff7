import Verif.Model.DelimiterView
import Verif.Props.LineBuffer
import Verif.Core.Bind
/-!
# Property C179: the delimiters of a line buffer
-/

namespace Spine

namespace ViewLineBuf

/-- Specification: the characters that a view was given. -/
def given (m : Texts) (v : TextView) : List Byte := (((m v.text).getD []).drop v.start).take v.size

/-- Specification: the text of the view exists, and the view shows the characters `D` of it. -/
def Shows (m : Texts) (v : TextView) (D : List Byte) : Prop := D.length = v.size ∧ (D = [] ∨ ∃ pre post, m v.text = some (pre ++ D ++ post) ∧ pre.length = v.start)

/-- Specification: the calls of a line buffer that remembers the delimiters it was given, `D` at present. The answers are those of C07-C11 (`LineBuf`). -/
def remembering (l : LineBuf) : List (Texts × Op) → Res (List (Option (Nat × List Byte)) × LineBuf)
  | [] => .ok ([], l)
  | (m, op) :: ops => do
    let (o, l) ← (match op with
      | .ring op => do let (_, ring) ← l.ring.step op; return (none, { l with ring })
      | .setDelims v => return (none, { l with delims := given m v })
      | .getNextLine dst n d => do let (r, l) ← l.getNextLine dst n d; return (some r, l)
      | .dropNextLine d => do let (r, l) ← l.dropNextLine d; return (some (if r then 1 else 0, []), l) : Res (Option (Nat × List Byte) × LineBuf))
    let (os, l) ← remembering l ops
    return (o :: os, l)

/-- The texts used as delimiters exist, and their characters are still those that were given (`D` for the view `v`), whenever a method that looks at them is called. -/
def Unchanged : TextView → List Byte → List (Texts × Op) → Prop
  | _, _, [] => True
  | v, D, (m, op) :: ops =>
    match op with
    | .setDelims v' => Shows m v' (given m v') ∧ Unchanged v' (given m v') ops
    | .ring _ => Unchanged v D ops
    | _ => Shows m v D ∧ Unchanged v D ops

variable {m : Texts} {D : List Byte}

theorem Shows.chars {v : TextView} (h : Shows m v D) : v.chars m = .ok D := by
  obtain ⟨h1, h2⟩ := h
  unfold TextView.chars
  rcases h2 with rfl | ⟨pre, post, e1, e2⟩
  · simp only [List.length_nil] at h1; simp [← h1]
  · by_cases h0 : v.size = 0
    · rw [if_pos h0]
      rw [h0] at h1
      rw [List.eq_nil_of_length_eq_zero h1]
    · rw [if_neg h0, e1]
      simp only [← h1, ← e2, List.append_assoc, List.length_append]
      rw [if_pos (by omega)]
      simp

theorem lengthLoop_eq {l : ViewLineBuf} (h : l.delims.chars m = .ok D) : ∀ (fuel i : Nat), l.lengthLoop m i fuel = LineBuf.lengthLoop ⟨l.ring, D⟩ i fuel
  | 0, _ => rfl
  | fuel + 1, i => by
    unfold lengthLoop LineBuf.lengthLoop
    congr 1; funext x
    cases x with
    | none => rfl
    | some v =>
      simp only [h, res_bind_ok, LineBuf.isDelim, lengthLoop_eq h fuel]
      rfl

theorem discovered_eq {l : ViewLineBuf} (h : l.delims.chars m = .ok D) (d : Option Nat) : l.discovered m d = LineBuf.discovered ⟨l.ring, D⟩ d := by
  unfold discovered LineBuf.discovered lengthOfNextLine LineBuf.lengthOfNextLine
  rw [lengthLoop_eq h]

theorem getNextLine_eq {l : ViewLineBuf} (h : l.delims.chars m = .ok D) (dst : List Byte) (n : Nat) (d : Option Nat) :
    l.getNextLine m dst n d = (LineBuf.getNextLine ⟨l.ring, D⟩ dst n d).map fun r => (r.1, ⟨r.2.ring, l.delims⟩) := by
  unfold getNextLine LineBuf.getNextLine
  rw [discovered_eq h]
  cases LineBuf.discovered ⟨l.ring, D⟩ d with
  | error e => rfl
  | ok k =>
    simp only [res_bind_ok]
    split
    · rfl
    · cases Ring.popLoop l.ring dst 0 (k - 1) with
      | error e => rfl
      | ok a =>
        obtain ⟨a, r⟩ := a
        simp only [res_bind_ok]
        cases r.pop with
        | error e => rfl
        | ok p =>
          obtain ⟨_, p⟩ := p
          simp only [res_bind_ok]
          cases wr a (k - 1) 0 <;> rfl

theorem dropNextLine_eq {l : ViewLineBuf} (h : l.delims.chars m = .ok D) (d : Option Nat) :
    l.dropNextLine m d = (LineBuf.dropNextLine ⟨l.ring, D⟩ d).map fun r => (r.1, ⟨r.2.ring, l.delims⟩) := by
  unfold dropNextLine LineBuf.dropNextLine
  rw [discovered_eq h]
  cases LineBuf.discovered ⟨l.ring, D⟩ d with
  | error e => rfl
  | ok k =>
    simp only [res_bind_ok]
    split
    · rfl
    · cases LineBuf.dropLoop l.ring (k - 1) with
      | error e => rfl
      | ok r =>
        simp only [res_bind_ok]
        cases r.pop <;> rfl

theorem getNextLine_delims {l l' : LineBuf} {dst : List Byte} {n : Nat} {d : Option Nat} {r : Nat × List Byte} (h : l.getNextLine dst n d = .ok (r, l')) : l'.delims = l.delims := by
  unfold LineBuf.getNextLine at h
  obtain ⟨k, -, h⟩ := res_bind h
  split at h
  · cases h; rfl
  · obtain ⟨⟨a, r'⟩, -, h⟩ := res_bind h
    obtain ⟨⟨_, p⟩, -, h⟩ := res_bind h
    obtain ⟨w, -, h⟩ := res_bind h
    cases h; rfl

theorem dropNextLine_delims {l l' : LineBuf} {d : Option Nat} {r : Bool} (h : l.dropNextLine d = .ok (r, l')) : l'.delims = l.delims := by
  unfold LineBuf.dropNextLine at h
  obtain ⟨k, -, h⟩ := res_bind h
  split at h
  · cases h; rfl
  · obtain ⟨a, -, h⟩ := res_bind h
    obtain ⟨⟨_, p⟩, -, h⟩ := res_bind h
    cases h; rfl

end ViewLineBuf

open ViewLineBuf

/-- C179 (partial). As long as the texts given as delimiters exist and keep their characters, a line buffer behaves over any history of calls as one that remembers the delimiters: every call
gives the same answer, and the contents are the same. Missing: texts that change or end, see `C179_current` and the counterexamples. -/
theorem C179_unchanged_partial (ops : List (Texts × Op)) : ∀ (l : ViewLineBuf) (D : List Byte), Unchanged l.delims D ops →
    (l.run ops).map (fun r => (r.1, r.2.ring)) = (remembering ⟨l.ring, D⟩ ops).map fun r => (r.1, r.2.ring) := by
  induction ops with
  | nil => intro l D _; rfl
  | cons x ops ih =>
    intro l D h
    obtain ⟨m, op⟩ := x
    have cont : ∀ (l' : ViewLineBuf) (D' : List Byte) (o : Option (Nat × List Byte)), Unchanged l'.delims D' ops →
        ((do let (os, l) ← l'.run ops; return (o :: os, l)) : Res (List (Option (Nat × List Byte)) × ViewLineBuf)).map (fun r => (r.1, r.2.ring)) =
        ((do let (os, l) ← remembering ⟨l'.ring, D'⟩ ops; return (o :: os, l)) : Res (List (Option (Nat × List Byte)) × LineBuf)).map (fun r => (r.1, r.2.ring)) := by
      intro l' D' o h'
      have := ih l' D' h'
      revert this
      cases l'.run ops <;> cases remembering ⟨l'.ring, D'⟩ ops <;> intro this <;> simp_all [Except.map, res_bind_ok, res_bind_error]
      all_goals (cases this; rfl)
    cases op with
    | ring op =>
      simp only [run, step, remembering]
      cases l.ring.step op with
      | error e => rfl
      | ok r => exact cont ⟨r.2, l.delims⟩ D none h
    | setDelims v =>
      simp only [run, step, remembering, res_bind_ok, res_pure]
      exact cont ⟨l.ring, v⟩ _ none h.2
    | getNextLine dst n d =>
      obtain ⟨h1, h2⟩ := h
      simp only [run, step, remembering, getNextLine_eq h1.chars]
      cases hg : LineBuf.getNextLine ⟨l.ring, D⟩ dst n d with
      | error e => rfl
      | ok r =>
        obtain ⟨r, l'⟩ := r
        have hd := getNextLine_delims hg
        obtain ⟨ring', D'⟩ := l'
        simp only at hd
        subst hd
        exact cont ⟨ring', l.delims⟩ _ (some r) h2
    | dropNextLine d =>
      obtain ⟨h1, h2⟩ := h
      simp only [run, step, remembering, dropNextLine_eq h1.chars]
      cases hg : LineBuf.dropNextLine ⟨l.ring, D⟩ d with
      | error e => rfl
      | ok r =>
        obtain ⟨r, l'⟩ := r
        have hd := dropNextLine_delims hg
        obtain ⟨ring', D'⟩ := l'
        simp only at hd
        subst hd
        exact cont ⟨ring', l.delims⟩ _ (some (if r then 1 else 0, [])) h2

/-- C179, exactly: the delimiters in force are the characters that the text has at the moment of the call; and if the text does not exist any more, then looking for a line is undefined
behaviour as soon as the buffer holds a character (and an empty buffer has no line). -/
theorem C179_current {n : Nat} (hn : 0 < n) {l : LineBuf} (hl : LineBuf.Reachable n l) {q : List Byte} (hq : l.Holds q) (m : Texts) (v : TextView) :
    (∀ D, Shows m v D → lengthOfNextLine m ⟨l.ring, v⟩ = LineBuf.lengthOfNextLine ⟨l.ring, D⟩) ∧
      (v.size ≠ 0 → m v.text = none → lengthOfNextLine m ⟨l.ring, v⟩ = if q = [] then .ok 0 else .error .ub) := by
  obtain ⟨q', hq'⟩ := hl.rep hn
  obtain rfl := hq'.holds.unique hq
  refine ⟨fun D h => lengthLoop_eq (l := ⟨l.ring, v⟩) h.chars _ _, fun h0 ht => ?_⟩
  have h : v.chars m = .error .ub := by unfold TextView.chars; rw [if_neg h0, ht]
  have hu := hq.1
  unfold lengthOfNextLine
  simp only [hu]
  cases q' with
  | nil => rfl
  | cons c q =>
    simp only [List.length_cons, lengthLoop, hq'.peek, List.getElem?_cons_zero, res_bind_ok, h, res_bind_error]
    simp

/-- C179 is false: a buffer is given the delimiters in a text; the text is changed (as when a configuration is read into the same memory again), and the next line ends elsewhere. -/
theorem C179_changed_counterexample (b : Build) : ∃ l₀ l : ViewLineBuf,
    create b 8 ⟨0, 0, 1⟩ = .ok l₀ ∧
    l₀.run [(fun _ => some [10], .ring (.pushMany [97, 10, 98, 59] false)), (fun _ => some [59], .getNextLine [0, 0, 0, 0, 0, 0, 0, 0] 8 none)]
      = .ok ([none, some (3, [97, 10, 98, 0, 0, 0, 0, 0])], l) := by
  cases b <;> exact ⟨_, _, rfl, rfl⟩

/-- C179 is false: the delimiters were given as a temporary string; the first look for a line is undefined behaviour. -/
theorem C179_destroyed_counterexample (b : Build) : ∃ l₀ : ViewLineBuf,
    create b 8 ⟨0, 0, 1⟩ = .ok l₀ ∧
    l₀.run [(fun _ => none, .ring (.pushMany [97, 10, 98, 59] false)), (fun _ => none, .getNextLine [0, 0, 0, 0, 0, 0, 0, 0] 8 none)] = .error .ub := by
  cases b <;> exact ⟨_, rfl, rfl⟩

/-- Non-vacuity of `C179_unchanged_partial`: delimiters that are set twice, in texts that change in other places or end afterwards. -/
example : Unchanged ⟨0, 0, 1⟩ [10] [(fun i => if i = 0 then some [10, 59] else none, .ring (.pushMany [97, 10, 98, 59] false)), (fun _ => some [10, 60], .dropNextLine none),
    (fun i => if i = 1 then some [59] else none, .setDelims ⟨1, 0, 1⟩), (fun i => if i = 1 then some [59] else none, .getNextLine [0, 0, 0] 3 none)] ∧
    ((do let l ← create .debug 8 ⟨0, 0, 1⟩
         l.run [(fun i => if i = 0 then some [10, 59] else none, .ring (.pushMany [97, 10, 98, 59] false)), (fun _ => some [10, 60], .dropNextLine none),
           (fun i => if i = 1 then some [59] else none, .setDelims ⟨1, 0, 1⟩), (fun i => if i = 1 then some [59] else none, .getNextLine [0, 0, 0] 3 none)]) :
      Res (List (Option (Nat × List Byte)) × ViewLineBuf)).map (·.1) = .ok [none, some (1, []), none, some (1, [98, 0, 0])] :=
  ⟨⟨⟨rfl, .inr ⟨[], [60], rfl, rfl⟩⟩, ⟨rfl, .inr ⟨[], [], rfl, rfl⟩⟩, ⟨rfl, .inr ⟨[], [], rfl, rfl⟩⟩, trivial⟩, rfl⟩

end Spine
