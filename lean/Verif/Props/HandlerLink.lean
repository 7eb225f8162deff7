import Verif.Model.HandlerLink
import Verif.Core.Bind
/-!
# C173: a handler belongs to one event system
-/

namespace Spine
namespace HandlerLink

private theorem attached {s : HandlerLink} {e : Nat} {ops : List Op} (hs : s.evsys = some e) :
    ∀ {s' : HandlerLink} {es : List Nat}, run .debug s ops = .ok (s', es) → s'.evsys = some e ∧ (∀ op ∈ ops, ∀ x, op ≠ .attach x) ∧ ∀ x ∈ es, x = e := by
  induction ops with
  | nil => intro s' es h; simp only [run, Except.ok.injEq, Prod.mk.injEq] at h; obtain ⟨rfl, rfl⟩ := h; simp [hs]
  | cons op ops ih =>
    intro s' es h
    cases op with
    | attach x => simp [run, attachSystem, hs] at h
    | use =>
      simp only [run, use, system, hs, Option.isSome_some, spnAssert_true, res_bind_ok, res_pure] at h
      cases hr : run .debug s ops with
      | error f => rw [hr] at h; simp at h
      | ok p =>
        rw [hr] at h
        simp only [res_bind_ok, Except.ok.injEq, Prod.mk.injEq] at h
        obtain ⟨rfl, rfl⟩ := h
        obtain ⟨h1, h2, h3⟩ := ih hr
        refine ⟨h1, ?_, ?_⟩
        · intro op hop x
          rcases List.mem_cons.mp hop with rfl | hop
          · simp
          · exact h2 op hop x
        · intro x hx
          rcases List.mem_cons.mp hx with rfl | hx
          · rfl
          · exact h3 x hx

/-- **C173**, debug builds: whatever a program does with a handler, as long as it is not stopped by an assertion all uses are of one event system: the one it was constructed
with, or the one it was attached to. -/
theorem C173_one_partial {e₀ : Option Nat} {ops : List Op} {s' : HandlerLink} {es : List Nat} (h : run .debug (create e₀) ops = .ok (s', es)) :
    (∀ e ∈ es, s'.evsys = some e) ∧ (∀ e, e₀ = some e → s'.evsys = some e) ∧ ∀ e, .attach e ∈ ops → s'.evsys = e := by
  cases e₀ with
  | some e =>
    obtain ⟨h1, h2, h3⟩ := attached rfl h
    exact ⟨fun x hx => by rw [h3 x hx, h1], fun x hx => by rw [h1]; exact hx, fun x hx => absurd rfl (h2 _ hx x)⟩
  | none =>
    cases ops with
    | nil => simp only [run, Except.ok.injEq, Prod.mk.injEq] at h; obtain ⟨rfl, rfl⟩ := h; simp
    | cons op ops =>
      cases op with
      | use => simp [run, use, system, create] at h
      | attach x =>
        cases x with
        | none => simp [run, attachSystem, create] at h
        | some x =>
          simp only [run, attachSystem, create, Option.isNone_none, Option.isSome_some, spnAssert_true, res_bind_ok, res_pure] at h
          obtain ⟨h1, h2, h3⟩ := attached rfl h
          refine ⟨fun y hy => by rw [h3 y hy, h1], by simp, fun y hy => ?_⟩
          rcases List.mem_cons.mp hy with hy | hy
          · cases hy; exact h1
          · exact absurd rfl (h2 _ hy y)

/-- **C173**, debug builds: a program that uses a handler before it has an event system, attaches it a second time, or attaches it to none, is stopped by an assertion. -/
theorem C173_stops {e₀ : Option Nat} {pre post : List Op} {op : Op} {s : HandlerLink} {es : List Nat} (h : run .debug (create e₀) pre = .ok (s, es))
    (hop : (s.evsys = none ∧ (op = .use ∨ op = .attach none)) ∨ (s.evsys ≠ none ∧ ∃ e, op = .attach e)) :
    run .debug (create e₀) (pre ++ op :: post) = .error .assertFailed := by
  revert es
  generalize create e₀ = s₀
  induction pre generalizing s₀ with
  | nil =>
    intro es h
    simp only [run, Except.ok.injEq, Prod.mk.injEq] at h
    obtain ⟨rfl, rfl⟩ := h
    rcases hop with ⟨hs, rfl | rfl⟩ | ⟨hs, e, rfl⟩
    · simp [run, use, system, hs]
    · simp [run, attachSystem, hs]
    · obtain ⟨x, hx⟩ := Option.ne_none_iff_exists'.mp hs
      simp [run, attachSystem, hx]
  | cons o pre ih =>
    intro es h
    cases o with
    | attach x =>
      simp only [List.cons_append, run] at h ⊢
      cases hr : attachSystem .debug s₀ x with
      | error f => rw [hr] at h; simp at h
      | ok s₁ => rw [hr] at h; simp only [res_bind_ok] at h ⊢; exact ih s₁ h
    | use =>
      simp only [List.cons_append, run] at h ⊢
      cases hr : use .debug s₀ with
      | error f => rw [hr] at h; simp at h
      | ok e =>
        rw [hr] at h
        simp only [res_bind_ok] at h ⊢
        cases hq : run .debug s₀ pre with
        | error f => rw [hq] at h; simp at h
        | ok p =>
          rw [hq] at h
          simp only [res_bind_ok, res_pure, Except.ok.injEq, Prod.mk.injEq] at h
          rw [ih s₀ (es := p.2) (by rw [hq, ← h.1])]
          rfl

/-- **C173**, release builds, the part that holds: a handler constructed with an event system and not attached to another one uses that one. Missing: handlers that are
attached when they have a system already, or to none. -/
theorem C173_release_partial {e : Nat} {n : Nat} : run .release (create (some e)) (List.replicate n .use) = .ok (create (some e), List.replicate n e) := by
  induction n with
  | zero => rfl
  | succ n ih =>
    rw [List.replicate_succ, run, ih]
    simp [use, system, create, List.replicate_succ]

/-- **C173** is false in release builds: attaching a handler to another system silently moves it there, and attaching it to none makes every use undefined. -/
theorem C173_release_counterexample (e e' : Nat) :
    run .release (create (some e)) [.use, .attach (some e'), .use] = .ok (⟨some e'⟩, [e, e']) ∧
      run .release (create (some e)) [.attach none, .use] = .error .ub ∧ run .release (create none) [.use] = .error .ub := by
  refine ⟨?_, ?_, ?_⟩ <;> simp [run, use, system, attachSystem, create]

/-- A handler constructed without a system, attached to system 7 and used twice, in a debug build; a second attachment stops the program. -/
example : run .debug (create none) [.attach (some 7), .use, .use] = .ok (⟨some 7⟩, [7, 7]) ∧
    run .debug (create none) [.attach (some 7), .use, .attach (some 8)] = .error .assertFailed := ⟨rfl, rfl⟩

end HandlerLink
end Spine
