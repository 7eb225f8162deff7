import Verif.Model.ResultObjects
import Verif.Props.Result
/-!
# C155: a `Result` as a variable
-/

namespace Spine
open Result

variable {S : Types} {t e i : S.Code} {σ : Type}

/-- The same state, with what a move leaves of the value. -/
def Outcome.leave (left : Leaves S) : Outcome (S.El t) (S.El e) (S.El i) → Outcome (S.El t) (S.El e) (S.El i)
  | .none => .none
  | .success x => .success (left t x)
  | .failure x => .failure (left e x)
  | .ongoing x => .ongoing (left i x)

/-- What the statements of a program on a variable should give, and what they should leave in the variable. -/
inductive Uses (left : Leaves S) : Outcome (S.El t) (S.El e) (S.El i) → σ → List (Stmt S t e i σ) → List (Got S t e i) → Outcome (S.El t) (S.El e) (S.El i) → σ → Prop
  /-- Nothing happens by itself. -/
  | nil {o w} : Uses left o w [] [] o w
  /-- Unwrapping gives the value, and changes nothing. -/
  | unwrap {x w cs gs o' w'} (h : Uses left (.success x) w cs gs o' w') : Uses left (.success x) w (.unwrap :: cs) (.value x :: gs) o' w'
  | unwrapError {x w cs gs o' w'} (h : Uses left (.failure x) w cs gs o' w') : Uses left (.failure x) w (.unwrapError :: cs) (.error x :: gs) o' w'
  | unwrapIntermediary {x w cs gs o' w'} (h : Uses left (.ongoing x) w cs gs o' w') : Uses left (.ongoing x) w (.unwrapIntermediary :: cs) (.intermediary x :: gs) o' w'
  /-- Moving gives the outcome, and leaves the state, with what is left of the value. -/
  | move {o w cs gs o' w'} (h : Uses left (o.leave left) w cs gs o' w') : Uses left o w (.move :: cs) (.result (Result.of o) :: gs) o' w'
  /-- A step of an ongoing result gives what the function gives; the variable stays ongoing, with the value that the function leaves. -/
  | chain {x x' w w₁ r f cs gs o' w'} (hf : f x w = .ok (r, x', w₁)) (h : Uses left (.ongoing x') w₁ cs gs o' w') : Uses left (.ongoing x) w (.chain f :: cs) (.result r :: gs) o' w'
  /-- A step of a success or a failure gives a copy, and the function does not run. -/
  | final {o w f cs gs o' w'} (ho : o.Final) (h : Uses left o w cs gs o' w') : Uses left o w (.chain f :: cs) (.result (Result.of o) :: gs) o' w'

/-- **C155 (partial).** Every program of these statements gives what it should, and leaves the variable and the world as it should. Missing: types for which a copy is not a copy, see
C87. -/
theorem C155_uses_partial (ht : e = t ∨ S.ofBool e = none) (b : Build) {left : Leaves S} {o o' : Outcome (S.El t) (S.El e) (S.El i)} {w w' : σ} {cs : List (Stmt S t e i σ)} {gs : List (Got S t e i)}
    (h : Uses left o w cs gs o' w') : execs b left (Result.of o) w cs = .ok (gs, Result.of o', w') := by
  induction h with
  | nil => rfl
  | @unwrap x w cs gs o' w' h ih =>
    rw [execs, exec, show (Result.of (.success x) : Result S t e i) = success x from rfl, (C88_unwrap_partial (i := i) b x).1]
    simp only [res_bind_ok, res_pure]
    rw [show (success x : Result S t e i) = Result.of (.success x) from rfl, ih, res_bind_ok]
  | @unwrapError x w cs gs o' w' h ih =>
    rw [execs, exec, show (Result.of (.failure x) : Result S t e i) = fail x from rfl, errorValue_fail]
    simp only [res_bind_ok, res_pure]
    rw [show (fail x : Result S t e i) = Result.of (.failure x) from rfl, ih, res_bind_ok]
  | @unwrapIntermediary x w cs gs o' w' h ih =>
    rw [execs, exec, show (Result.of (.ongoing x) : Result S t e i) = inter x from rfl, intermediaryValue_inter]
    simp only [res_bind_ok, res_pure]
    rw [show (inter x : Result S t e i) = Result.of (.ongoing x) from rfl, ih, res_bind_ok]
  | @move o w cs gs o' w' h ih =>
    have : ((Result.of o).move left).2 = Result.of (o.leave left) := by cases o <;> rfl
    rw [execs, exec, this, res_bind_ok]
    simp only [ih, res_bind_ok, res_pure, Result.move]
  | @chain x x' w w₁ r f cs gs o' w' hf h ih =>
    have : (Result.of (.ongoing x) : Result S t e i).chainOn b f w = .ok (r, Result.of (.ongoing x'), w₁) := by
      rw [chainOn, if_neg (by simp [Result.of, isFailed, isSuccess, inter]), show (Result.of (.ongoing x) : Result S t e i) = inter x from rfl, intermediaryValueMut_inter, res_bind_ok, hf]
      rfl
    rw [execs, exec, this]
    simp only [res_bind_ok, res_pure, ih]
  | @final o w f cs gs o' w' ho h ih =>
    have : (Result.of o).chainOn b f w = .ok (Result.of o, Result.of o, w) := by
      rw [chainOn, if_pos, C87_copy_partial ht]
      cases o <;> first | rfl | exact ho.elim
    rw [execs, exec, this]
    simp only [res_bind_ok, res_pure, ih]

/-- **C155**: after a move, the variable still reports the state it had. -/
theorem C155_moved_state (left : Leaves S) (r : Result S t e i) :
    (r.move left).2.isSuccess = r.isSuccess ∧ (r.move left).2.isFailed = r.isFailed ∧ (r.move left).2.isIntermediary = r.isIntermediary := ⟨rfl, rfl, rfl⟩

/-- C155 is false for types such as `Result<std::string, int>`: a step of a success gives a failure, with error 1. -/
theorem C155_copy_counterexample (b : Build) (left : Leaves cxx) (x : List Char) (w : σ) (f : Int → σ → Res (Result cxx .text .int .int × Int × σ)) :
    execs (S := cxx) (t := .text) (e := .int) (i := .int) b left (success x) w [.chain f] = .ok ([.result (fail (1 : Int))], success x, w) := by
  cases b <;> rfl

/-- What moves leave: nothing of a text, and everything of a number. -/
def cxxLeaves : Leaves cxx
  | .text, _ => ([] : List Char)
  | .int, x => x
  | .double, x => x
  | .bool, x => x

/-- `counter.chain(...)` twice, with a function that counts: it sees the count it left. -/
example : let count : Stmt cxx .text .text .int (List Int) := .chain fun (n : Int) w => .ok (inter (100 : Int), (n + 1 : Int), w ++ [n])
    execs .debug cxxLeaves (Result.of (.ongoing (5 : Int)) : Result cxx .text .text .int) [] [count, count, .unwrapIntermediary] =
      .ok ([.result (inter (100 : Int)), .result (inter (100 : Int)), .intermediary (7 : Int)], Result.of (.ongoing (7 : Int)), [5, 6]) :=
  C155_uses_partial (.inl rfl) .debug (.chain rfl (.chain rfl (.unwrapIntermediary .nil)))

/-- Unwrapping twice gives the text twice, and after a move the success is an empty text. -/
example : execs .debug cxxLeaves (Result.of (.success "ok".toList) : Result cxx .text .int .int) () [.unwrap, .unwrap, .move, .unwrap] =
    .ok ([.value "ok".toList, .value "ok".toList, .result (success "ok".toList), .value []], Result.of (.success []), ()) := rfl

end Spine
