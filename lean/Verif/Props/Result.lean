import Verif.Model.Result
import Verif.Spec.Outcomes
import Verif.Core.Bind
import Mathlib.Data.Rat.Defs
import Mathlib.Tactic.NormNum
/-!
# C54, C55, C87, C88: `Result`
-/

namespace Spine

open Result

variable {S : Types} {t e i t' e' i' : S.Code} {σ : Type}

/-- The object that stands for an outcome. -/
def Result.of : Outcome (S.El t) (S.El e) (S.El i) → Result S t e i
  | .none => empty
  | .success x => success x
  | .failure x => fail x
  | .ongoing x => inter x

theorem get_self (c : S.Code) (x : S.El c) (k : Kind) : (⟨some ⟨c, x⟩, k⟩ : Result S t e i).get c = .ok x := by simp [Result.get]

theorem holds_self (c : S.Code) (x : S.El c) (k : Kind) : (⟨some ⟨c, x⟩, k⟩ : Result S t e i).holds c = true := by simp [Result.holds]

theorem value_success (b : Build) (x : S.El t) : (success x : Result S t e i).value b = .ok x := by
  rw [value, show (success x : Result S t e i).isSuccess = true from rfl, spnAssert_true, res_bind_ok, success, holds_self, spnAssert_true, res_bind_ok, get_self]

theorem errorValue_fail (b : Build) (x : S.El e) : (fail x : Result S t e i).errorValue b = .ok x := by
  rw [errorValue, show (fail x : Result S t e i).isFailed = true from rfl, spnAssert_true, res_bind_ok, fail, holds_self, spnAssert_true, res_bind_ok, get_self]

theorem intermediaryValue_inter (b : Build) (x : S.El i) : (inter x : Result S t e i).intermediaryValue b = .ok x := by
  rw [intermediaryValue, show (inter x : Result S t e i).isIntermediary = true from rfl, spnAssert_true, res_bind_ok, inter, holds_self, spnAssert_true, res_bind_ok, get_self]

theorem intermediaryValueMut_inter (b : Build) (x : S.El i) : (inter x : Result S t e i).intermediaryValueMut b = .ok x := by
  rw [intermediaryValueMut, show (inter x : Result S t e i).isIntermediary = true from rfl, spnAssert_true, res_bind_ok, inter, get_self]

theorem flags_success (x : S.El t) : (success x : Result S t e i).isSuccess = true ∧ (success x : Result S t e i).isFailed = false ∧
    (success x : Result S t e i).isIntermediary = false := ⟨rfl, rfl, rfl⟩

theorem flags_fail (x : S.El e) : (fail x : Result S t e i).isSuccess = false ∧ (fail x : Result S t e i).isFailed = true ∧
    (fail x : Result S t e i).isIntermediary = false := ⟨rfl, rfl, rfl⟩

theorem flags_inter (x : S.El i) : (inter x : Result S t e i).isSuccess = false ∧ (inter x : Result S t e i).isFailed = false ∧
    (inter x : Result S t e i).isIntermediary = true := ⟨rfl, rfl, rfl⟩

theorem flags_empty : (empty : Result S t e i).isSuccess = false ∧ (empty : Result S t e i).isFailed = false ∧
    (empty : Result S t e i).isIntermediary = false := ⟨rfl, rfl, rfl⟩

attribute [local simp] value_success errorValue_fail intermediaryValue_inter flags_success flags_fail flags_inter flags_empty

/-! ## C87: construction and copies -/

/-- C87: a `const` value, a temporary, `failed` and `intermediary` give the state they say, with the value given, also when types coincide. -/
theorem C87_states (b : Build) (x : S.El t) (y : S.El e) (z : S.El i) :
    (success x : Result S t e i).value b = .ok x ∧ (fail y : Result S t e i).errorValue b = .ok y ∧ (inter z : Result S t e i).intermediaryValue b = .ok z ∧
      (success x : Result S t e i).isSuccess = true ∧ (success x : Result S t e i).isFailed = false ∧ (success x : Result S t e i).isIntermediary = false ∧
      (fail y : Result S t e i).isSuccess = false ∧ (fail y : Result S t e i).isFailed = true ∧ (fail y : Result S t e i).isIntermediary = false ∧
      (inter z : Result S t e i).isSuccess = false ∧ (inter z : Result S t e i).isFailed = false ∧ (inter z : Result S t e i).isIntermediary = true :=
  ⟨value_success b x, errorValue_fail b y, intermediaryValue_inter b z, rfl, rfl, rfl, rfl, rfl, rfl, rfl, rfl, rfl⟩

/-- C87: a variable gives a success, and a copy equals the original, if `E` is `T` or neither `T` nor `bool` converts to `E`. Missing: see
`C87_copy_counterexample` and `C87_value_counterexample`. -/
theorem C87_copy_partial (h : e = t ∨ S.ofBool e = none) (r : Result S t e i) : r.copy = r := by
  unfold Result.copy
  split
  · rw [h.resolve_left ‹_›]
  · rfl

theorem C87_value_partial (h : e = t ∨ S.conv t e = none) (x : S.El t) : (ofVariable x : Result S t e i) = success x := by
  unfold ofVariable
  split
  · rw [h.resolve_left ‹_›]
  · rfl

/-- C87 is false if `E` is another type that a `bool` converts to, such as `int`: every copy of a variable is a failure, with error 1 for a success and
0 for anything else. -/
theorem C87_copy_counterexample {f : Bool → S.El e} (h : e ≠ t) (hf : S.ofBool e = some f) (b : Build) (r : Result S t e i) :
    r.copy.isFailed = true ∧ r.copy.errorValue b = .ok (f r.isSuccess) := by
  rw [Result.copy, if_pos h, hf]
  exact ⟨rfl, errorValue_fail b _⟩

/-- C87 is false if `T` converts to `E`: a `Result` constructed from a variable is a failure. -/
theorem C87_value_counterexample {f : S.El t → S.El e} (h : e ≠ t) (hf : S.conv t e = some f) (b : Build) (x : S.El t) :
    (ofVariable x : Result S t e i).isFailed = true ∧ (ofVariable x : Result S t e i).errorValue b = .ok (f x) := by
  rw [ofVariable, if_pos h, hf]
  exact ⟨rfl, errorValue_fail b _⟩

/-- Some C++ types: texts, `int`, `double` (as rational numbers) and `bool`. -/
inductive Cxx
  | text
  | int
  | double
  | bool
deriving DecidableEq

def cxx : Types where
  Code := Cxx
  El
    | .text => List Char
    | .int => Int
    | .double => Rat
    | .bool => Bool
  conv
    | .int, .double => some fun (n : Int) => (n : Rat)
    | .bool, .int => some fun (x : Bool) => if x then (1 : Int) else 0
    | .int, .bool => some fun (n : Int) => decide (n ≠ 0)
    | _, _ => none
  ofBool
    | .text => none
    | .int => some fun (x : Bool) => if x then (1 : Int) else 0
    | .double => some fun (x : Bool) => if x then (1 : Rat) else 0
    | .bool => some id

/-- `Result<std::string, int> a("ok"); auto b = a;` makes `b` a failure with error 1. -/
example : ((success "ok".toList : Result cxx .text .int .text).copy.errorValue .debug) = .ok (1 : Int) :=
  (C87_copy_counterexample (S := cxx) (t := .text) (e := .int) (i := .text) (f := fun x => (if x then (1 : Int) else 0 : Int)) (by intro h; cases h) rfl .debug (success "ok".toList)).2

/-- `int n = 5; Result<int, double> r(n);` makes `r` a failure with error 5. -/
example : ((ofVariable (5 : Int) : Result cxx .int .double .int).isFailed) = true := by decide

/-- The hypotheses are met by `Result<float>` and `Result<float, std::string, int>`, as in the tests. -/
example : cxx.ofBool Cxx.text = none ∧ cxx.conv Cxx.double Cxx.text = none := ⟨rfl, rfl⟩

/-! ## C54: chains -/

/-- What a step yields, as the object. -/
def Result.step (f : S.El i → σ → Res (Outcome (S.El t) (S.El e) (S.El i) × σ)) (a : S.El i) (w : σ) : Res (Result S t e i × σ) :=
  (f a w).map fun p => (Result.of p.1, p.2)

theorem chain_final {o : Outcome (S.El t) (S.El e) (S.El i)} (h : e = t ∨ S.ofBool e = none) (ho : o.Final) (b : Build)
    (f : S.El i → σ → Res (Result S t e i × σ)) (w : σ) : (Result.of o).chain b f w = .ok (Result.of o, w) := by
  rw [chain, if_pos, C87_copy_partial h]
  cases o <;> first | rfl | exact ho.elim

theorem chain_ongoing (a : S.El i) (b : Build) (f : S.El i → σ → Res (Result S t e i × σ)) (w : σ) :
    (inter a : Result S t e i).chain b f w = f a w := by
  rw [chain, if_neg (by simp [isFailed, isSuccess, inter]), intermediaryValueMut_inter]
  rfl

theorem chains_final {o : Outcome (S.El t) (S.El e) (S.El i)} (h : e = t ∨ S.ofBool e = none) (ho : o.Final) (b : Build) (w : σ) :
    ∀ fs : List (S.El i → σ → Res (Result S t e i × σ)), chains b (Result.of o) fs w = .ok (Result.of o, w) := by
  intro fs
  induction fs with
  | nil => rfl
  | cons f fs ih => rw [chains, chain_final h ho, res_bind_ok]; exact ih

/-- The steps of a chain that all yield ongoing results run in order. -/
theorem C54_continues {a c : S.El i} {w w' : σ} {fs : List (S.El i → σ → Res (Outcome (S.El t) (S.El e) (S.El i) × σ))} (hs : Continues a w fs c w')
    (b : Build) (gs : List (S.El i → σ → Res (Result S t e i × σ))) :
    chains b (inter a : Result S t e i) (fs.map step ++ gs) w = chains b (inter c) gs w' := by
  induction hs with
  | nil => rfl
  | cons h _ ih =>
    rw [List.map_cons, List.cons_append, chains, chain_ongoing, step, h]
    exact ih

/-- C54: steps run in order until one yields a success or a failure; that is the result, and no later step acts on the world. Missing: types for which a
copy is not a copy (`C87_copy_counterexample`), and a chain that starts with, or comes to, a `Result` without a value
(`C54_empty_counterexample`). -/
theorem C54_stops_partial {a c : S.El i} {w w' w'' : σ} {fs : List (S.El i → σ → Res (Outcome (S.El t) (S.El e) (S.El i) × σ))}
    {f : S.El i → σ → Res (Outcome (S.El t) (S.El e) (S.El i) × σ)} {o : Outcome (S.El t) (S.El e) (S.El i)} (ht : e = t ∨ S.ofBool e = none)
    (hs : Continues a w fs c w') (hf : f c w' = .ok (o, w'')) (ho : o.Final) (b : Build) (gs : List (S.El i → σ → Res (Result S t e i × σ))) :
    chains b (inter a : Result S t e i) (fs.map step ++ step f :: gs) w = .ok (Result.of o, w'') := by
  rw [C54_continues hs, chains, chain_ongoing, step, hf]
  exact chains_final ht ho b w'' gs

/-- C54: an exception in a step ends the chain, too. -/
theorem C54_throws {a c : S.El i} {w w' : σ} {fs : List (S.El i → σ → Res (Outcome (S.El t) (S.El e) (S.El i) × σ))}
    {f : S.El i → σ → Res (Outcome (S.El t) (S.El e) (S.El i) × σ)} {x : Fault} (hs : Continues a w fs c w') (hf : f c w' = .error x) (b : Build)
    (gs : List (S.El i → σ → Res (Result S t e i × σ))) : chains b (inter a : Result S t e i) (fs.map step ++ step f :: gs) w = .error x := by
  rw [C54_continues hs, chains, chain_ongoing, step, hf]
  rfl

/-- C54: a chain that starts with a success or a failure runs nothing. -/
theorem C54_final_partial {o : Outcome (S.El t) (S.El e) (S.El i)} (ht : e = t ∨ S.ofBool e = none) (ho : o.Final) (b : Build) (w : σ)
    (gs : List (S.El i → σ → Res (Result S t e i × σ))) : chains b (Result.of o) gs w = .ok (Result.of o, w) := chains_final ht ho b w gs

/-- C54 is false for a `Result` without a value: an assertion fails, and in release builds the value that is not there is read. -/
theorem C54_empty_counterexample (f : S.El i → σ → Res (Result S t e i × σ)) (w : σ) :
    (empty : Result S t e i).chain .debug f w = .error .assertFailed ∧ (empty : Result S t e i).chain .release f w = .error .ub := ⟨rfl, rfl⟩

/-- C54 is false for types such as `Result<double, int>`: if the first step succeeds, the chain ends as a failure with error 1. -/
theorem C54_copy_counterexample (b : Build) (x : Rat) (w : σ) (g : Int → σ → Res (Result cxx .double .int .int × σ)) :
    chains (S := cxx) (t := .double) (e := .int) (i := .int) b (inter (0 : Int)) [fun _ w => .ok (success x, w), g] w = .ok (fail (1 : Int), w) := by
  cases b <;> rfl

/-- Three steps that record their names: the third does not run. -/
example : ∃ fs : List (Int → List String → Res (Outcome Int (List Char) Int × List String)),
    chains (S := cxx) (t := .int) (e := .text) (i := .int) .debug (inter (5 : Int)) (fs.map step) [] = .ok (fail "odd".toList, ["one", "two"]) ∧ fs.length = 3 :=
  ⟨[fun n w => .ok (.ongoing (n + 2), w ++ ["one"]), fun n w => .ok (if n % 2 = 1 then .failure "odd".toList else .ongoing n, w ++ ["two"]),
    fun n w => .ok (.success n, w ++ ["three"])], by
    refine ⟨?_, rfl⟩
    refine C54_stops_partial (S := cxx) (t := .int) (e := .text) (i := .int) (a := (5 : Int)) (c := (7 : Int)) (w' := ["one"]) (o := .failure "odd".toList) (.inr rfl)
      (fs := [_]) (f := _) (.cons rfl (.nil _ _)) ?_ trivial .debug [step _]
    rfl⟩

/-! ## C55: combinators -/

/-- Acting on the success only. -/
def Outcome.onSuccess {T E I T' : Type} (f : T → Res T') : Outcome T E I → Res (Outcome T' E I)
  | .success x => (f x).map .success
  | .failure x => .ok (.failure x)
  | .ongoing x => .ok (.ongoing x)
  | .none => .ok .none

/-- Acting on the failure only. -/
def Outcome.onFailure {T E I E' : Type} (f : E → Res E') : Outcome T E I → Res (Outcome T E' I)
  | .success x => .ok (.success x)
  | .failure x => (f x).map .failure
  | .ongoing x => .ok (.ongoing x)
  | .none => .ok .none

/-- Acting on the ongoing state only. -/
def Outcome.onOngoing {T E I I' : Type} (f : I → Res I') : Outcome T E I → Res (Outcome T E I')
  | .success x => .ok (.success x)
  | .failure x => .ok (.failure x)
  | .ongoing x => (f x).map .ongoing
  | .none => .ok .none

/-- C55: `map`, `map_error` and `map_intermediary` act on their own state and pass the others through, for all types. -/
theorem C55_map (b : Build) (o : Outcome (S.El t) (S.El e) (S.El i)) (f : S.El t → Res (S.El t')) (g : S.El e → Res (S.El e')) (h : S.El i → Res (S.El i')) :
    (Result.of o).map b f = (o.onSuccess f).map Result.of ∧ (Result.of o).mapError b g = (o.onFailure g).map Result.of ∧
      (Result.of o).mapIntermediary b h = (o.onOngoing h).map Result.of := by
  cases o with
  | none => exact ⟨rfl, rfl, rfl⟩
  | success x =>
    refine ⟨?_, by simp [Result.mapError, Result.of, Outcome.onFailure, Except.map], by simp [Result.mapIntermediary, Result.of, Outcome.onOngoing, Except.map]⟩
    simp only [Result.map, Result.of, Outcome.onSuccess, flags_success, if_true, value_success, res_bind_ok]
    cases f x <;> rfl
  | failure x =>
    refine ⟨by simp [Result.map, Result.of, Outcome.onSuccess, Except.map], ?_, by simp [Result.mapIntermediary, Result.of, Outcome.onOngoing, Except.map]⟩
    simp only [Result.mapError, Result.of, Outcome.onFailure, flags_fail, if_true, errorValue_fail, res_bind_ok]
    cases g x <;> rfl
  | ongoing x =>
    refine ⟨by simp [Result.map, Result.of, Outcome.onSuccess, Except.map], by simp [Result.mapError, Result.of, Outcome.onFailure, Except.map], ?_⟩
    simp only [Result.mapIntermediary, Result.of, Outcome.onOngoing, flags_inter, if_true, intermediaryValue_inter, res_bind_ok]
    cases h x <;> rfl

/-- C55: `and_then` gives what the function gives for a success, and passes the other states through; `or_else` does so for a failure. -/
theorem C55_then (b : Build) (f : S.El t → Res (Result S t' e i)) (g : S.El e → Res (Result S t e' i)) (x : S.El t) (y : S.El e) (z : S.El i) :
    (success x : Result S t e i).andThen b f = f x ∧ (fail y : Result S t e i).andThen b f = .ok (fail y) ∧
      (inter z : Result S t e i).andThen b f = .ok (inter z) ∧ (empty : Result S t e i).andThen b f = .ok empty ∧
      (success x : Result S t e i).orElse b g = .ok (success x) ∧ (fail y : Result S t e i).orElse b g = g y ∧
      (inter z : Result S t e i).orElse b g = .ok (inter z) ∧ (empty : Result S t e i).orElse b g = .ok empty := by
  refine ⟨?_, ?_, ?_, rfl, ?_, ?_, ?_, rfl⟩
  · simp [andThen]
  · simp [andThen]
  · simp [andThen]
  · simp [orElse]
  · simp [orElse]
  · simp [orElse]

theorem bind_ok_self {α : Type} (x : Res α) : (x >>= fun a => .ok a) = x := by cases x <;> rfl

/-- C55: the functor laws, in every state. -/
theorem C55_functor {t'' : S.Code} (b : Build) (o : Outcome (S.El t) (S.El e) (S.El i)) (f : S.El t → S.El t') (g : S.El t' → S.El t'') :
    (Result.of o).map b (fun x => .ok x) = .ok (Result.of o) ∧
      ((Result.of o).map b (fun x => .ok (f x)) >>= fun r => r.map b (fun x => .ok (g x))) = (Result.of o).map b (fun x => .ok (g (f x))) := by
  have m : ∀ {u u' : S.Code} (o : Outcome (S.El u) (S.El e) (S.El i)) (f : S.El u → Res (S.El u')), (Result.of o).map b f = (o.onSuccess f).map Result.of :=
    fun o f => (C55_map (e' := e) (i' := i) b o f (fun x => .ok x) (fun x => .ok x)).1
  refine ⟨?_, ?_⟩
  · rw [m]; cases o <;> rfl
  · rw [m, m]
    cases o with
    | none => exact m .none (fun x => .ok (g x))
    | success x => exact m (.success (f x)) _
    | failure x => exact m (.failure x) (fun x => .ok (g x))
    | ongoing x => exact m (.ongoing x) (fun x => .ok (g x))

/-- C55: the monad laws of `and_then`, in every state. -/
theorem C55_monad {t'' : S.Code} (b : Build) (o : Outcome (S.El t) (S.El e) (S.El i)) (x : S.El t) (f : S.El t → Res (Result S t' e i)) (g : S.El t' → Res (Result S t'' e i)) :
    (success x : Result S t e i).andThen b f = f x ∧ (Result.of o).andThen b (fun x => .ok (success x)) = .ok (Result.of o) ∧
      ((Result.of o).andThen b f >>= fun r => r.andThen b g) = (Result.of o).andThen b (fun x => f x >>= fun r => r.andThen b g) := by
  have a : ∀ {u u' : S.Code} (f : S.El u → Res (Result S u' e i)) (x : S.El u), (success x : Result S u e i).andThen b f = f x := fun f x => by
    simp [andThen]
  have c : ∀ {u u' : S.Code} (f : S.El u → Res (Result S u' e i)) (x : S.El e), (fail x : Result S u e i).andThen b f = .ok (fail x) := fun f x => by
    simp [andThen]
  have d : ∀ {u u' : S.Code} (f : S.El u → Res (Result S u' e i)) (x : S.El i), (inter x : Result S u e i).andThen b f = .ok (inter x) := fun f x => by
    simp [andThen]
  refine ⟨a f x, ?_, ?_⟩
  · cases o with
    | none => rfl
    | success x => exact a _ x
    | failure x => exact c _ x
    | ongoing x => exact d _ x
  · cases o with
    | none => rfl
    | success x => rw [Result.of, a, a]
    | failure x => rw [Result.of, c, c, res_bind_ok, c]
    | ongoing x => rw [Result.of, d, d, res_bind_ok, d]

/-- C55: `match` calls the handler for the state, and only that one. Missing: a `Result` without a value (`C55_match_counterexample`). -/
theorem C55_match_partial {α : Type} (b : Build) (f : S.El t → Res α) (g : S.El e → Res α) (h : S.El i → Res α) (x : S.El t) (y : S.El e) (z : S.El i) :
    (success x : Result S t e i).cases b f g h = f x ∧ (fail y : Result S t e i).cases b f g h = g y ∧ (inter z : Result S t e i).cases b f g h = h z := by
  refine ⟨?_, ?_, ?_⟩
  · simp [Result.cases]
  · simp [Result.cases]
  · simp [Result.cases]

/-- C55 is false for `match` on a `Result` without a value. -/
theorem C55_match_counterexample {α : Type} (f : S.El t → Res α) (g : S.El e → Res α) (h : S.El i → Res α) :
    (empty : Result S t e i).cases .debug f g h = .error .assertFailed ∧ (empty : Result S t e i).cases .release f g h = .error .ub := ⟨rfl, rfl⟩

/-- Half an even number. -/
def half (n : Int) : Res Int := if n % 2 = 0 then .ok (n / 2) else .error .exception

example : Result.map (S := cxx) (t := .int) (e := .text) (i := .int) (t' := .int) .debug (success (4 : Int)) half = .ok (success (2 : Int)) ∧
    Result.map (S := cxx) (t := .int) (e := .text) (i := .int) (t' := .int) .debug (inter (4 : Int)) half = .ok (inter (4 : Int)) := ⟨rfl, rfl⟩

/-! ## C88: taking the value out -/

/-- The value to use if there is no success. -/
def Outcome.orValue {T E I : Type} (d : T) : Outcome T E I → T
  | .success x => x
  | _ => d

/-- The error to use if there is no failure. -/
def Outcome.orError {T E I : Type} (d : E) : Outcome T E I → E
  | .failure x => x
  | _ => d

/-- C88: `value_or`, `error_or` and `unwrap_or_else` in every state. -/
theorem C88_or (b : Build) (o : Outcome (S.El t) (S.El e) (S.El i)) (x : S.El t) (y : S.El e) :
    (Result.of o).valueOr b x = .ok (o.orValue x) ∧ (Result.of o).errorOr b y = .ok (o.orError y) ∧
      (Result.of o).unwrapOrElse b (fun _ => .ok x) = .ok (o.orValue x) := by
  cases o with
  | none => exact ⟨rfl, rfl, rfl⟩
  | success v => exact ⟨value_success b v, rfl, value_success b v⟩
  | failure v => exact ⟨rfl, errorValue_fail b v, rfl⟩
  | ongoing v => exact ⟨rfl, rfl, rfl⟩

/-- C88: in debug builds each accessor gives the value of its own state and fails an assertion in every other, also when types coincide. -/
theorem C88_access (o : Outcome (S.El t) (S.El e) (S.El i)) :
    ((∃ x, (Result.of o).value .debug = .ok x ∧ o = .success x) ∨ (Result.of o).value .debug = .error .assertFailed ∧ ∀ x, o ≠ .success x) ∧
    ((∃ x, (Result.of o).errorValue .debug = .ok x ∧ o = .failure x) ∨ (Result.of o).errorValue .debug = .error .assertFailed ∧ ∀ x, o ≠ .failure x) ∧
    ((∃ x, (Result.of o).intermediaryValue .debug = .ok x ∧ o = .ongoing x) ∨
      (Result.of o).intermediaryValue .debug = .error .assertFailed ∧ ∀ x, o ≠ .ongoing x) := by
  cases o with
  | none => exact ⟨.inr ⟨rfl, by simp⟩, .inr ⟨rfl, by simp⟩, .inr ⟨rfl, by simp⟩⟩
  | success v => exact ⟨.inl ⟨v, value_success _ v, rfl⟩, .inr ⟨rfl, by simp⟩, .inr ⟨rfl, by simp⟩⟩
  | failure v => exact ⟨.inr ⟨rfl, by simp⟩, .inl ⟨v, errorValue_fail _ v, rfl⟩, .inr ⟨rfl, by simp⟩⟩
  | ongoing v => exact ⟨.inr ⟨rfl, by simp⟩, .inr ⟨rfl, by simp⟩, .inl ⟨v, intermediaryValue_inter _ v, rfl⟩⟩

/-- C88: `unwrap` of a success gives its value; of an ongoing result with `I = T`, its value, too. Missing: `I ≠ T`, see
`C88_unwrap_counterexample`. -/
theorem C88_unwrap_partial (b : Build) (x : S.El t) : (success x : Result S t e i).unwrap b = .ok x ∧ (inter x : Result S t e t).unwrap b = .ok x := by
  constructor
  · rw [unwrap, show (success x : Result S t e i).isSuccess = true from rfl, Bool.true_or, spnAssert_true, res_bind_ok, success, holds_self, spnAssert_true, res_bind_ok, get_self]
  · rw [unwrap, show (inter x : Result S t e t).isIntermediary = true from rfl, Bool.or_true, spnAssert_true, res_bind_ok, inter, holds_self, spnAssert_true, res_bind_ok, get_self]

/-- C88 is false for `unwrap` of an ongoing result, which its first assertion admits, if `I` is not `T`. -/
theorem C88_unwrap_counterexample (h : i ≠ t) (x : S.El i) :
    (inter x : Result S t e i).unwrap .debug = .error .assertFailed ∧ (inter x : Result S t e i).unwrap .release = .error .exception := by
  constructor
  · rw [unwrap, show (inter x : Result S t e i).isIntermediary = true from rfl, Bool.or_true, spnAssert_true, res_bind_ok, Result.holds, inter]
    simp only [h, decide_false]
    rfl
  · rw [unwrap, spnAssert_release, res_bind_ok, spnAssert_release, res_bind_ok, Result.get, inter]
    simp [h]

/-- C88 is false in release builds if types coincide: the accessors do not tell a failure from a success. -/
theorem C88_release_counterexample (x : S.El t) : (fail x : Result S t t i).value .release = .ok x := by
  rw [value, spnAssert_release, res_bind_ok, spnAssert_release, res_bind_ok, fail, get_self]

end Spine
