import Verif.Model.Result
/-!
# Model of a `Result` as an object

`/repo/src/spine/structure/result.hpp`, for a variable on which members are called one after the other: what they return, and what they leave in the variable.

`unwrap`, `unwrap_error_value` and `unwrap_intermediary_value` apply `std::move` to a `Wrapper`, not to the value in it. The conversion of the `Wrapper` is `operator T&()`,
`unique_type_variant.hpp:88`, which gives an lvalue, so what is returned is copied, and the value stays. (So they do not compile for types that cannot be copied.)
-/

namespace Spine
namespace Result

variable {S : Types} {t e i : S.Code} {σ : Type}

/-- What a move leaves in the object that was moved from, for each type: the value itself for numbers, an empty text or pointer for others. -/
abbrev Leaves (S : Types) : Type := (c : S.Code) → S.El c → S.El c

/-- `Result(Result&&)` and its assignment, `result.hpp:24`, `:26`: the members are moved one by one. Gives the new object and the one that was moved from. The
`optional` keeps its alternative with a value that was moved from, and `_type` is copied. The forwarding constructor of `:41-42` is no better match for a temporary, and a template. -/
def move (left : Leaves S) (r : Result S t e i) : Result S t e i × Result S t e i :=
  (r, { r with v := r.v.map fun x => ⟨x.1, left x.1 x.2⟩ })

/-- `chain`, `result.hpp:91-99`, on a variable. The function gets the value in the variable by reference, and may write to it; besides its result and the new world, it gives the
value it leaves. Gives the result, and the variable. -/
def chainOn (b : Build) (r : Result S t e i) (func : S.El i → σ → Res (Result S t e i × S.El i × σ)) (w : σ) : Res (Result S t e i × Result S t e i × σ) :=
  if r.isFailed || r.isSuccess then .ok (r.copy, r, w)
  else do
    let x ← r.intermediaryValueMut b
    let (r', x', w) ← func x w
    return (r', { r with v := some ⟨i, x'⟩ }, w)

/-- A statement on a variable. -/
inductive Stmt (S : Types) (t e i : S.Code) (σ : Type)
  | unwrap
  | unwrapError
  | unwrapIntermediary
  | move
  | chain (func : S.El i → σ → Res (Result S t e i × S.El i × σ))

/-- What a statement gives. -/
inductive Got (S : Types) (t e i : S.Code)
  | value (x : S.El t)
  | error (x : S.El e)
  | intermediary (x : S.El i)
  | result (r : Result S t e i)

/-- One statement. -/
def exec (b : Build) (left : Leaves S) (r : Result S t e i) (w : σ) : Stmt S t e i σ → Res (Got S t e i × Result S t e i × σ)
  | .unwrap => do return (.value (← r.unwrap b), r, w)
  | .unwrapError => do return (.error (← r.errorValue b), r, w)
  | .unwrapIntermediary => do return (.intermediary (← r.intermediaryValue b), r, w)
  | .move => .ok (.result (r.move left).1, (r.move left).2, w)
  | .chain f => do
    let (r', r, w) ← r.chainOn b f w
    return (.result r', r, w)

/-- Statements one after the other. -/
def execs (b : Build) (left : Leaves S) : Result S t e i → σ → List (Stmt S t e i σ) → Res (List (Got S t e i) × Result S t e i × σ)
  | r, w, [] => .ok ([], r, w)
  | r, w, c :: cs => do
    let (g, r, w) ← r.exec b left w c
    let (gs, r, w) ← execs b left r w cs
    return (g :: gs, r, w)

end Result
end Spine
