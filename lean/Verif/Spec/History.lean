import Verif.Model.EventSystem
/-!
# Specification: histories of an event system

Read off the record of what happened (newest entry first).
-/

namespace Spine

variable {ω δ H : Type}

/-- What identifies a scheduled event and what its receiver sees. -/
structure Key (δ : Type) where
  seq : Nat
  id : Nat
  data : δ
  deadline : Int
  deriving DecidableEq, Repr

/-- The key of an event object. -/
def Event.key (e : Event δ) : Key δ := ⟨e.seq, e.id, e.data, e.timer.future⟩

/-- `a` is to be delivered before `c`: earlier deadline, or equal deadlines and scheduled earlier. -/
def Event.Before (a c : Event δ) : Prop :=
  a.timer.future < c.timer.future ∨ (a.timer.future = c.timer.future ∧ a.seq < c.seq)

/-- The events put into the pipeline. -/
def scheduledKeys : List (Entry δ H) → List (Key δ)
  | [] => []
  | .scheduled e _ :: l => e.key :: scheduledKeys l
  | _ :: l => scheduledKeys l

/-- The events delivered by `loop()`. -/
def firedKeys : List (Entry δ H) → List (Key δ)
  | [] => []
  | .fired e _ _ :: l => e.key :: firedKeys l
  | _ :: l => firedKeys l

/-- The handlers called at a nesting depth, with the event they got, newest first. -/
def callsAt (depth : Nat) : List (Entry δ H) → List (H × Event δ)
  | [] => []
  | .called h e d _ :: l => if d = depth then (h, e) :: callsAt depth l else callsAt depth l
  | _ :: l => callsAt depth l

/-- The sleeps, newest first. -/
def sleeps : List (Entry δ H) → List Int
  | [] => []
  | .slept ms :: l => ms :: sleeps l
  | _ :: l => sleeps l

/-- The handlers attached to an id, oldest first. -/
def attached : List (Entry δ H) → Nat → List (Option H)
  | [], _ => []
  | .attached i h :: l, id => if i = id then attached l id ++ [h] else attached l id
  | _ :: l, id => attached l id

/-- The calls owed to the events delivered by `loop()` at a nesting depth, after what is recorded in `old`, oldest first: for each of
them the handlers attached at that moment, as many as there is room for. -/
def owed (cap depth : Nat) (old : List (Entry δ H)) : List (Entry δ H) → List (Option H × Event δ)
  | [] => []
  | .fired e _ d :: l =>
    if d = depth then owed cap depth old l ++ ((attached (l ++ old) e.id).take cap).map (fun h => (h, e)) else owed cap depth old l
  | _ :: l => owed cap depth old l

/-- Programs that only schedule into the future: delays are positive, more than `lo` and at most `hi`, no time is taken, and `loop()` is
not called.  With `nested` they may trigger events directly. -/
def Prog.Forward (nested : Bool) (lo hi : Int) : Prog ω δ H → Prop
  | .done => True
  | .now k => ∀ t, (k t).Forward nested lo hi
  | .wait _ _ => False
  | .schedule _ d _ k => (lo < d ∧ 0 < d ∧ d ≤ hi) ∧ k.Forward nested lo hi
  | .trigger _ _ k => nested = true ∧ k.Forward nested lo hi
  | .event _ d _ k => (lo < d ∧ 0 < d ∧ d ≤ hi) ∧ ∀ x, (k x).Forward nested lo hi
  | .submit _ k => k.Forward nested lo hi
  | .drop _ k => k.Forward nested lo hi
  | .attach _ _ k => k.Forward nested lo hi
  | .loop _ => False

namespace ES

/-- The uptime is at most `2^40` ms and every delay ever asked for is at most `2^23` ms and not negative. -/
def Tame (s : ES ω δ H) : Prop :=
  s.clock ≤ 2 ^ 40 ∧ ∀ e t, Entry.scheduled e t ∈ s.trace → 0 ≤ e.timeFromNow ∧ e.timeFromNow ≤ 2 ^ 23

/-- Every state a program can bring an event system into.  `objs` are the event objects. -/
inductive Reach [DecidableEq ω] (b : Build) (beh : Behaviour ω δ H) (cfg : Config) (objs : List ω) : ES ω δ H → Prop
  | create {blank : δ} {now : Int} {s : ES ω δ H} : 0 ≤ now → ES.create b cfg objs blank now = .ok s → Reach b beh cfg objs s
  | attach {s s' : ES ω δ H} {id : Nat} {h : Option H} : Reach b beh cfg objs s → s.attach b id h = .ok s' → Reach b beh cfg objs s'
  | exec {s s' : ES ω δ H} {p : Prog ω δ H} {nest fuel : Nat} : Reach b beh cfg objs s → s.run b beh nest fuel p = .ok s' →
      Reach b beh cfg objs s'
  | loop {s s' : ES ω δ H} {nest fuel : Nat} : Reach b beh cfg objs s → s.loop b beh nest fuel = .ok s' → Reach b beh cfg objs s'

/-- Obtain events one after the other, keeping them. -/
def takes [DecidableEq ω] (b : Build) (s : ES ω δ H) : List (Nat × Int × δ) → Res (List (Option ω) × ES ω δ H)
  | [] => .ok ([], s)
  | (id, delay, data) :: l => do
    let (x, s) ← s.event b id delay data
    let (xs, s) ← takes b s l
    return (x :: xs, s)

end ES
end Spine
