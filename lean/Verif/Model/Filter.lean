import Verif.Model.Tuner
/-!
# Model of the filters

`/repo/src/spine/filter/` over any arithmetic `F`, with `ValueType = float`.  A filter that throws leaves its object behind in the state
reached so far, so `value(sample)` gives the new state and an output, `none` meaning that an exception was thrown.
-/

namespace Spine

variable {F : Type} [Arith F]

/-- `a == b` on floating point numbers. -/
def feq (a b : F) : Bool := Arith.le a b && Arith.le b a

/-- `std::min(a, b)`. -/
def fmin (a b : F) : F := if Arith.lt b a then b else a

/-- `std::clamp(v, lo, hi)`; undefined if `hi < lo`. -/
def fclamp (v lo hi : F) : Res F :=
  if Arith.lt hi lo then .error .ub else .ok (if Arith.lt v lo then lo else if Arith.lt hi v then hi else v)

/-! ## EWMA -/

/-- `EWMA`, `ewma.hpp:52-53`. -/
structure Ewma (F : Type) where
  n : F
  value : F
  deriving DecidableEq

namespace Ewma

/-- A new filter, `ewma.hpp:52-53`. -/
def create : Ewma F := ⟨fzero, fzero⟩

/-- `value(sample)`, `ewma.hpp:28-34`, with frame length `k`; the result is the new `_value`. -/
def sample (k : F) (s : Ewma F) (x : F) : Ewma F :=
  let n := Arith.add s.n (Arith.ofRat 1)
  if feq s.n fzero then ⟨n, x⟩ else ⟨n, Arith.add s.value (Arith.div (Arith.sub x s.value) (fmin n k))⟩

/-- `reset_to`, `ewma.hpp:44-47`. -/
def reset (_ : Ewma F) (v : F) : Ewma F := ⟨fzero, v⟩

/-- A series of samples. -/
def samples (k : F) (s : Ewma F) (xs : List F) : Ewma F := xs.foldl (sample k) s

end Ewma

/-! ## BandPass -/

/-- `BandPass::Config`, `bandpass.hpp:20-39`. `width` stands for `std::pow(mantissa * 10, decades + 1)`, `bandpass.hpp:96-97`; nothing
is assumed about it. -/
structure BandCfg (F : Type) where
  relative : Bool
  width : F
  offset : F
  limit : Int
  throws : Bool

/-- `BandPass`, `bandpass.hpp:106-109`. -/
structure Band (F : Type) where
  value : F
  lower : F
  upper : F
  rejections : Int
  deriving DecidableEq

namespace Band

/-- `DefaultValue`, `bandpass.hpp:101`. -/
def unset : F := Arith.ofRat (-789123456789 / 1000000000)

/-- `update_limits`, `bandpass.hpp:94-98`. -/
def updateLimits (c : BandCfg F) (s : Band F) : Band F :=
  let mid := if c.relative then Arith.add s.value c.offset else c.offset
  { s with upper := Arith.add mid c.width, lower := Arith.sub mid c.width }

/-- The constructor, `bandpass.hpp:51-55`, without its check of the mantissa. -/
def create (c : BandCfg F) : Band F := updateLimits c ⟨unset, fzero, fzero, 0⟩

/-- `reset_to`, `bandpass.hpp:91`. -/
def reset (s : Band F) (v : F) : Band F := { s with value := v }

/-- `value(sample)`, `bandpass.hpp:58-84`; the flag says that no exception was thrown. -/
def sample (c : BandCfg F) (s : Band F) (x : F) : Res (Bool × Band F) := do
  let s := if feq s.value unset then s.reset x else s
  let s := if c.relative then updateLimits c s else s
  if Arith.le s.lower x && Arith.le x s.upper then return (true, { s with value := x, rejections := 0 })
  else
    let s := { s with rejections := ← i32 (s.rejections + 1) }
    if s.rejections > c.limit then if c.throws then return (false, s) else return (true, { s with value := x })
    else return (true, s)

/-- What can happen to a filter. -/
inductive Op (F : Type)
  | sample (x : F)
  | reset (v : F)

/-- One operation. -/
def exec (c : BandCfg F) (s : Band F) : Op F → Res (Bool × Band F)
  | .sample x => s.sample c x
  | .reset v => .ok (true, s.reset v)

/-- A history; exceptions are caught by the user, who goes on. -/
def run (c : BandCfg F) (s : Band F) : List (Op F) → Res (Band F)
  | [] => .ok s
  | op :: ops => do run c (← s.exec c op).2 ops

/-- A series of samples: for each, whether it went without an exception and what `value()` is then. -/
def samples (c : BandCfg F) (s : Band F) : List F → Res (List (Bool × F) × Band F)
  | [] => .ok ([], s)
  | x :: xs => do
    let (ok, s) ← s.sample c x
    let (os, s') ← samples c s xs
    return ((ok, s.value) :: os, s')

end Band

/-! ## MappedRange, Invert, Passthrough -/

/-- `MappedRange::Config`, `mapped_range.hpp:15-22`. -/
structure MapCfg (F : Type) where
  inLo : F
  inHi : F
  outLo : F
  outHi : F
  throws : Bool

/-- `MappedRange::value(sample)`, `mapped_range.hpp:46-60`; the state is only the last value. `none`: it throws. -/
def MapCfg.map (c : MapCfg F) (x : F) : Res (Option F) := do
  let scale (x : F) : F :=
    Arith.add c.outLo (Arith.mul (Arith.div (Arith.sub x c.inLo) (Arith.sub c.inHi c.inLo)) (Arith.sub c.outHi c.outLo))
  if Arith.lt x c.inLo || Arith.lt c.inHi x then
    if c.throws then return none else return some (scale (← fclamp x c.inLo c.inHi))
  else return some (scale x)

/-- `Invert::value(sample)`, `invert.hpp:34-37`. -/
def invert (b : Build) (lo hi x : F) : Res F := do
  spnAssert b (Arith.le lo x && Arith.le x hi)
  return Arith.sub hi (Arith.sub x lo)

/-! ## Stack -/

/-- `Filter`, `filter.hpp:7-24`: any object with state. -/
structure Filter (F : Type) where
  State : Type
  state : State
  /-- `value(sample)`: the state after it, and what it returns; `none` if it throws -/
  step : State → F → Res (State × Option F)
  /-- `value()` -/
  current : State → F
  /-- `reset_to(v)` -/
  reset : State → F → State

namespace Filter

/-- `value(sample)` of a filter object. -/
def take (f : Filter F) (x : F) : Res (Filter F × Option F) :=
  match f.step f.state x with
  | .error e => .error e
  | .ok (s, y) => .ok ({ f with state := s }, y)

/-- `value()`. -/
def value (f : Filter F) : F := f.current f.state

/-- `reset_to(v)`. -/
def resetTo (f : Filter F) (v : F) : Filter F := { f with state := f.reset f.state v }

/-- `EWMA` as a filter. -/
def ewma (k : F) : Filter F :=
  { State := Ewma F, state := Ewma.create, step := fun s x => let s := s.sample k x; .ok (s, some s.value), current := Ewma.value, reset := Ewma.reset }

/-- `BandPass` as a filter. -/
def band (c : BandCfg F) : Filter F :=
  { State := Band F, state := Band.create c, step := fun s x => do let (ok, s) ← s.sample c x; return (s, if ok then some s.value else none),
    current := Band.value, reset := Band.reset }

/-- `MappedRange` as a filter. -/
def mapped (c : MapCfg F) : Filter F :=
  { State := F, state := fzero, step := fun v x => do let y ← c.map x; return (y.getD v, y), current := id, reset := fun _ v => v }

/-- `Invert` as a filter. -/
def inverter (b : Build) (lo hi : F) : Filter F :=
  { State := F, state := fzero, step := fun _ x => do let y ← invert b lo hi x; return (y, some y), current := id, reset := fun _ v => v }

/-- `Passthrough` as a filter, `passthrough.hpp:23-36`. -/
def passthrough : Filter F :=
  { State := F, state := fzero, step := fun _ x => .ok (x, some x), current := id, reset := fun _ v => v }

end Filter

/-- `filter::Stack`, `filterstack.hpp:14-62`; a slot is null after `attach_filter(nullptr)`. -/
abbrev FilterStack (F : Type) := List (Option (Filter F))

namespace FilterStack

/-- `attach_filter`, `filterstack.hpp:19-22`: `max_size()` of `std::vector` is never reached. -/
def attach (st : FilterStack F) (f : Option (Filter F)) : FilterStack F := st ++ [f]

/-- `value(sample)`, `filterstack.hpp:31-38`. -/
def take (b : Build) : FilterStack F → F → Res (FilterStack F × Option F)
  | [], x => .ok ([], some x)
  | none :: fs, x => if b = .debug then .error .assertFailed else do
    let (fs', y) ← take b fs x
    return (none :: fs', y)
  | some f :: fs, x => do
    let (f', y) ← f.take x
    match y with
    | none => return (some f' :: fs, none)
    | some y => do
      let (fs', z) ← take b fs y
      return (some f' :: fs', z)

/-- `value()`, `filterstack.hpp:41`. -/
def value (st : FilterStack F) : Res F :=
  match st.getLast? with
  | none => .ok fzero
  | some none => .error .ub
  | some (some f) => .ok f.value

/-- `reset_to`, `filterstack.hpp:47-51`. -/
def resetTo : FilterStack F → F → Res (FilterStack F)
  | [], _ => .ok []
  | none :: _, _ => .error .ub
  | some f :: fs, v => do return some (f.resetTo v) :: (← resetTo fs v)

end FilterStack
end Spine
