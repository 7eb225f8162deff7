import Verif.Props.Vector
import Verif.Props.PushOrder
/-!
# C195: a capacity beyond what is needed changes nothing
-/

namespace Spine

namespace Seq

variable {α : Type}

/-- The answer does not mention the capacity, and the vector is not filled up to it. -/
def NotAboutCapacity : Vec.Op α → Prop
  | .full | .maxSize | .fill _ => False
  | _ => True

theorem step_larger {n m : Nat} (h : n ≤ m) {q q' : List α} {op : Vec.Op α} {o : Vec.Out α} (ho : NotAboutCapacity op) (hs : step n q op = some (o, q')) : step m q op = some (o, q') := by
  cases op <;> first
    | exact ho.elim
    | exact hs
    | (simp only [step] at hs ⊢
       split at hs
       · rw [if_pos (by omega)]; exact hs
       · cases hs)

theorem run_larger {n m : Nat} (h : n ≤ m) (ops : List (Vec.Op α)) : ∀ {q q' : List α} {os : List (Vec.Out α)}, (∀ op ∈ ops, NotAboutCapacity op) → run n q ops = some (os, q') →
    run m q ops = some (os, q') := by
  induction ops with
  | nil => intro q q' os _ hr; exact hr
  | cons op ops ih =>
    intro q q' os ho hr
    rw [run] at hr ⊢
    cases hs : step n q op with
    | none => rw [hs] at hr; cases hr
    | some r =>
      obtain ⟨o, q1⟩ := r
      rw [hs] at hr
      rw [step_larger h (ho op (by simp)) hs]
      cases hr' : run n q1 ops with
      | none => simp [hr'] at hr
      | some r' =>
        obtain ⟨os', q2⟩ := r'
        simp [hr'] at hr
        simp [ih (fun x hx => ho x (by simp [hx])) hr', hr]

end Seq

namespace Agenda

variable {ω : Type} [DecidableEq ω]

theorem step_larger {n m : Nat} (h : n ≤ m) {longest : Int} {see : Int → Int} {s t : State ω} {op : Op ω} {o : Out ω} (hs : step n longest see s op = some (o, t)) : step m longest see s op = some (o, t) := by
  cases op with
  | push now x d =>
    simp only [step] at hs ⊢
    split at hs
    · rename_i c
      rw [if_pos ⟨by omega, c.2⟩]; exact hs
    · cases hs
  | expire => exact hs
  | due => exact hs
  | next => exact hs

theorem run_larger {n m : Nat} (h : n ≤ m) {longest : Int} {see : Int → Int} (ops : List (Op ω)) : ∀ {s t : State ω} {os : List (Out ω)}, run n longest see s ops = some (os, t) →
    run m longest see s ops = some (os, t) := by
  induction ops with
  | nil => intro s t os hr; exact hr
  | cons op ops ih =>
    intro s t os hr
    obtain ⟨o, u, os', e1, e2, rfl⟩ := run_cons.mp hr
    exact run_cons.mpr ⟨o, u, os', step_larger h e1, ih e2, rfl⟩

end Agenda

variable {b : Build}

/-- **C195**, partial. A history that suits a vector of capacity `n` gives the same answers with any larger capacity, and the vectors hold the same at the end.
Missing: `pop_back` and `remove`, see the counterexample. -/
theorem C195_vector_partial {α : Type} {e : Elem α} {n m : Nat} (hnm : n ≤ m) (hm : m < sizeMod) (ops : List (Vec.Op α)) (hops : ∀ op ∈ ops, op.Plain) (hcap : ∀ op ∈ ops, Seq.NotAboutCapacity op)
    {outs : List (Vec.Out α)} {q : List α} (hseq : Seq.run n [] ops = some (outs, q)) :
    ∃ v v', (Vec.create e n).run b e ops = .ok (outs, v) ∧ v.Holds q ∧ (Vec.create e m).run b e ops = .ok (outs, v') ∧ v'.Holds q := by
  obtain ⟨v, r1, r2⟩ := C19_vector_is_bounded_sequence (b := b) (.create (e := e) n) (by simp [Vec.create, Vec.maxSize]; omega) ops hops (by simpa [Vec.create, Vec.maxSize] using hseq)
  obtain ⟨v', s1, s2⟩ := C19_vector_is_bounded_sequence (b := b) (.create (e := e) m) (by simpa [Vec.create, Vec.maxSize] using hm) ops hops (by simpa [Vec.create, Vec.maxSize] using Seq.run_larger hnm ops hcap hseq)
  exact ⟨v, v', r1, r2, s1, s2⟩

/-- Non-vacuity: a history that needs all of a capacity of 2, so that the smaller vector moves its elements and the larger one does not. -/
example : Seq.run 2 ([] : List Nat) [.pushBack 1, .pushBack 2, .popFront true, .pushBack 3, .get 1, .insert 0 4] = none ∧
    Seq.run 2 ([] : List Nat) [.pushBack 1, .pushBack 2, .popFront true, .pushBack 3, .get 1, .size] = some ([.unit, .unit, .val 1, .unit, .val 3, .num 2], [2, 3]) := by decide

/-- C195 is false for `remove`: a vector that is full reads past the end of its storage, one with room to spare does not. -/
theorem C195_remove_counterexample :
    (Vec.create natElem 3).run b natElem [.pushBack 1, .pushBack 2, .pushBack 3, .remove 1] = .error .ub ∧
    ∃ v, (Vec.create natElem 4).run b natElem [.pushBack 1, .pushBack 2, .pushBack 3, .remove 1] = .ok ([.unit, .unit, .unit, .val 2], v) := by
  cases b <;> exact ⟨rfl, _, rfl⟩

/-- C195 is false for `pop_back`: with a capacity of 2 the elements are moved to the start of the storage and both calls are right, with 3 they are not moved and the second call gives the element
that was taken from the front before. -/
theorem C195_pop_back_counterexample :
    (∃ v, (Vec.create natElem 2).run b natElem [.pushBack 1, .pushBack 2, .popFront true, .pushBack 3, .popBack true, .popBack true] = .ok ([.unit, .unit, .val 1, .unit, .val 3, .val 2], v)) ∧
    ∃ v, (Vec.create natElem 3).run b natElem [.pushBack 1, .pushBack 2, .popFront true, .pushBack 3, .popBack true, .popBack true] = .ok ([.unit, .unit, .val 1, .unit, .val 3, .val 1], v) := by
  cases b <;> exact ⟨⟨_, rfl⟩, _, rfl⟩

/-- **C195**, partial. The same for pipelines; missing is what is missing in C35. -/
theorem C195_pipeline_partial {ω δ : Type} [DecidableEq ω] {n m : Nat} (hnm : n ≤ m) (hm : m < sizeMod) (heap : ω → Event δ) (ops : List (Agenda.Op ω))
    (hmono : (ops.map (·.time)).Pairwise (· ≤ ·)) (hrange : ∀ op ∈ ops, 0 ≤ op.time ∧ op.time ≤ 2 ^ 40)
    {outs : List (Agenda.Out ω)} {st : Agenda.State ω} (h : Agenda.run n (2 ^ 23) near ⟨[], 0⟩ ops = some (outs, st)) :
    ∃ p p' : Pipe ω δ, Pipe.run b { vec := Vec.create (sharedPtr ω) n, heap } ops = .ok (outs, p) ∧ Pipe.run b { vec := Vec.create (sharedPtr ω) m, heap } ops = .ok (outs, p') ∧
      ∃ q : List ω, p.vec.Holds (q.map some) ∧ p'.vec.Holds (q.map some) := by
  obtain ⟨p, r1, r2, _, _⟩ := C35_later_partial (b := b) (by omega) heap _ hmono hrange h
  obtain ⟨p', s1, s2, _, _⟩ := C35_later_partial (b := b) hm heap _ hmono hrange (Agenda.run_larger hnm ops h)
  exact ⟨p, p', r1, s1, st.items.map (·.obj), by simpa [List.map_map, Function.comp_def] using r2, by simpa [List.map_map, Function.comp_def] using s2⟩

/-- Non-vacuity: two futures at a time in a pipeline of capacity 2, three in all. -/
example : (Agenda.run 2 (2 ^ 23) near (⟨[], 0⟩ : Agenda.State Nat) [.push 10 1 5, .push 10 2 3, .expire 13, .push 13 3 1, .expire 20, .expire 20]).isSome = true ∧
    ((blankPipe 2).run b [.push 10 1 5, .push 10 2 3, .expire 13, .push 13 3 1, .expire 20, .expire 20]).map Prod.fst = .ok [.unit, .unit, .obj 2, .unit, .obj 3, .obj 1] := by
  cases b <;> refine ⟨?_, ?_⟩ <;> decide +kernel

end Spine
