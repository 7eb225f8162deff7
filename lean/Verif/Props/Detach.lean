import Verif.Props.EventSystem
import Verif.Core.Bind
/-!
# Property C146: detaching a handler
-/

namespace Spine
open ES

variable {ω δ H : Type} [DecidableEq ω] {b : Build} {beh : Behaviour ω δ H} {cfg : Config} {objs : List ω} {s s' s'' : ES ω δ H}

/-- **C146 (partial).** In debug builds nobody can use the event system after detaching a handler: the call does not return. Missing: that the handler is detached
(`C146_detach_counterexample`). -/
theorem C146_debug_partial (h : H) : s.detach .debug h = .error .assertFailed := rfl

/-- **C146** is false: in release builds a handler that was attached is called by every trigger of its id after it was detached, in the same place among the others; if it has been
destroyed in the meantime, through a dangling pointer. This holds after any history and with any handlers, for all that are within the capacity. -/
theorem C146_detach_counterexample (hh : cfg.handlerCap < sizeMod) (hr : Reach .release beh cfg objs s) {h : H} (hd : s.detach .release h = .ok s')
    {rounds nest depth : Nat} {e : Event δ} (hatt : some h ∈ (attached s.trace e.id).take cfg.handlerCap)
    (ht : trigger .release beh rounds nest depth s' e = .ok s'') :
    ∃ new, s''.trace = new ++ s.trace ∧ (h, e) ∈ callsAt depth new ∧
      (callsAt depth new).reverse.map (fun c => (some c.1, c.2)) = ((attached s.trace e.id).take cfg.handlerCap).map (fun x => (x, e)) := by
  cases hd
  obtain ⟨new, h1, -, h3⟩ := C39_trigger hh hr ht
  refine ⟨new, h1, ?_, h3⟩
  have hm : (some h, e) ∈ ((attached s.trace e.id).take cfg.handlerCap).map (fun x => (x, e)) := List.mem_map.mpr ⟨_, hatt, rfl⟩
  rw [← h3] at hm
  obtain ⟨c, hc, he⟩ := List.mem_map.mp hm
  cases he
  exact List.mem_reverse.mp hc

/-- Two handlers, one of which is detached: both are called. -/
example : (do let s ← ES.create .release { eventsCount := 1, eventsCap := 2, handlerCap := 2, delayBetweenTicks := false, minDelay := 0, maxDelay := 0 } [0, 1] 0 0
              let s ← s.attach .release 0 (some 7)
              let s ← s.attach .release 0 (some 8)
              let s ← s.detach .release 7
              s.run .release (fun _ _ _ => .done) 1 1 (.trigger 0 5 .done) : Res (ES Nat Nat Nat)).map
      (fun s => (callsAt 0 s.trace).map (·.1)) = .ok [8, 7] := by
  decide +kernel

end Spine
