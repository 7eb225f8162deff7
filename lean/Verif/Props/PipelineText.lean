import Verif.Model.PipelineText
import Verif.Props.Text
import Verif.Props.EventSystem
/-!
# Property C123: a pipeline as text
-/

namespace Spine

variable {ω δ : Type} [DecidableEq ω] {b : Build}

open Text

theorem repr_total (m : Mag) {v : Int} (hk : m.per .micro * |(v : Rat)| ≤ 2 ^ 61) : ∃ text, Text.repr m v = .ok text := by
  by_cases hv : 0 ≤ v
  · have hv' : (0 : Rat) ≤ v := by exact_mod_cast hv
    obtain ⟨t, -, -, h, -⟩ := C86_repr_partial m hv (by rwa [abs_of_nonneg hv'] at hk)
    exact ⟨t, h⟩
  · have hv' : (v : Rat) < 0 := by exact_mod_cast (by omega : v < 0)
    have hpos := per_pos m .micro
    have : ∃ r, toUnit m .micro v = .ok r ∧ r < 1000 := by
      unfold toUnit
      split
      · exact ⟨v, rfl, by omega⟩
      · obtain ⟨r, e, h⟩ := C32_error_partial m .micro hk
        refine ⟨r, e, ?_⟩
        rw [abs_of_neg hv'] at h
        have h1 := (abs_le.mp h).2
        have h2 : m.per .micro * (v : Rat) < 0 := by nlinarith
        have h3 : (r : Rat) < 1000 := by
          have : m.per .micro * -(v : Rat) / 2 ^ 22 = -(m.per .micro * v) / 2 ^ 22 := by ring
          rw [this] at h1
          linarith
        exact_mod_cast h3
    obtain ⟨r, e, hr⟩ := this
    simp only [Text.repr, reprParts, e, res_bind_ok, if_pos hr, res_pure]
    exact ⟨_, rfl⟩

namespace Pipe

/-- `texts` are the remaining times of the entries `q`, the `i`-th at the time `reads (k + i)`, as `repr` writes them (C86). -/
def Shows (reads : Nat → Int) : Nat → List (Item ω) → List (List Char) → Prop
  | _, [], [] => True
  | k, x :: q, w :: ws => Text.repr .milli (x.deadline - reads k) = .ok w ∧ Shows reads (k + 1) q ws
  | _, _, _ => False

/-- The text with the given remaining times. -/
def framed (texts : List (List Char)) : List Char := "Pipeline: [".toList ++ (texts.map (· ++ ", ".toList)).flatten ++ "]".toList

private theorem listed_spec {n : Nat} {p : Pipe ω δ} {q : List (Item ω)} {now : Int} {reads : Nat → Int} (h : Rep n p q now)
    (hr : ∀ i, 0 ≤ reads i ∧ reads i ≤ 2 ^ 24) (hq : ∀ x ∈ q, 0 ≤ x.deadline ∧ x.deadline ≤ 2 ^ 25) :
    ∀ (fuel k : Nat), k ≤ q.length → q.length - k < fuel →
    ∃ ws, Shows reads k (q.drop k) ws ∧ p.listed reads (p.vec.head + k) k fuel = .ok (ws.map (· ++ ", ".toList)).flatten
  | 0, _, _, h => by omega
  | fuel + 1, k, hk, hfu => by
    obtain ⟨pre, post, log, hv, hl, hn, _⟩ := h.vec
    have hlen : pre.length + q.length + post.length = n := by simpa using hl
    have hstore : p.vec.store = pre ++ (q.map fun x => some x.obj) ++ post := by rw [hv]; rfl
    have hhead : p.vec.head = pre.length := by rw [hv]; rfl
    have htail : p.vec.tail = pre.length + q.length := by rw [hv]; simp [Vec.mk']
    unfold listed
    by_cases hend : k = q.length
    · subst hend
      rw [if_pos (by rw [hhead, htail])]
      exact ⟨[], by simp [Shows], rfl⟩
    · have hlt : k < q.length := by omega
      have hne : p.vec.head + k ≠ p.vec.tail := by rw [hhead, htail]; omega
      rw [if_neg hne]
      have hrd : rd p.vec.store (p.vec.head + k) = .ok (some q[k].obj) := by
        rw [hstore, hhead, Vec.rd_window k (by simpa using hlt)]; simp
      have hm : q[k] ∈ q := List.getElem_mem _
      have hdk := h.deadline _ hm
      obtain ⟨d0, d1⟩ := hq _ hm
      obtain ⟨r0, r1⟩ := hr k
      have hleft : (p.heap q[k].obj).timer.timeFromNow (reads k) = .ok (q[k].deadline - reads k) := by
        unfold Alarm.timeFromNow
        rw [msSub_near (by rw [abs_of_nonneg r0]; omega), near_eq (by rw [abs_of_nonneg r0]; exact r1), hdk,
          i64_small (by rw [abs_le]; constructor <;> omega)]
      obtain ⟨w, hw⟩ := repr_total .milli (v := q[k].deadline - reads k) (by
        have h1 : |q[k].deadline - reads k| ≤ 2 ^ 25 := by rw [abs_le]; constructor <;> omega
        have h2 : |((q[k].deadline - reads k : Int) : Rat)| ≤ 2 ^ 25 := by exact_mod_cast h1
        have h3 : Mag.per .milli .micro = 1000 := by norm_num [Mag.per, Mag.seconds]
        rw [h3]; linarith)
      obtain ⟨ws, hws, hrec⟩ := listed_spec h hr hq fuel (k + 1) (by omega) (by omega)
      simp only [hrd, res_bind_ok, deref, hleft, hw]
      rw [uadd_lt (by rw [hhead]; omega), Nat.add_assoc, hrec, res_bind_ok, if_pos hne]
      refine ⟨w :: ws, ?_, by simp⟩
      rw [List.drop_eq_getElem_cons hlt]
      exact ⟨hw, hws⟩

private theorem deadlines {n : Nat} {longest : Int} {see : Int → Int} (hl : longest ≤ 2 ^ 23) : ∀ (ops : List (Agenda.Op ω)) {st st' : Agenda.State ω} {outs : List (Agenda.Out ω)},
    (∀ op ∈ ops, 0 ≤ op.time ∧ op.time ≤ 2 ^ 24) → (∀ x ∈ st.items, 0 ≤ x.deadline ∧ x.deadline ≤ 2 ^ 25) →
    Agenda.run n longest see st ops = some (outs, st') → ∀ x ∈ st'.items, 0 ≤ x.deadline ∧ x.deadline ≤ 2 ^ 25
  | [], st, st', outs, _, hs, h => by cases h; exact hs
  | op :: ops, st, st', outs, hr, hs, h => by
    simp only [Agenda.run, Option.bind_eq_bind, Option.bind_eq_some_iff] at h
    obtain ⟨⟨o, s1⟩, h1, ⟨os, s2⟩, h2, h3⟩ := h
    have h4 := Option.some.inj h3
    obtain ⟨-, rfl⟩ := Prod.mk.inj h4
    refine deadlines hl ops (fun op ho => hr op (List.mem_cons_of_mem _ ho)) ?_ h2
    have h0 := hr op List.mem_cons_self
    cases op with
    | push t o d =>
      simp only [Agenda.step] at h1
      split at h1
      · next hc =>
        obtain ⟨-, rfl⟩ := Prod.mk.inj (Option.some.inj h1)
        intro x hx
        have h0' : 0 ≤ t ∧ t ≤ 2 ^ 24 := h0
        rcases List.mem_cons.mp ((insert_perm _ _).mem_iff.mp hx) with rfl | hx
        · simp only; omega
        · exact hs x hx
      · cases h1
    | expire t =>
      simp only [Agenda.step] at h1
      split at h1
      · next y items he =>
        split at h1
        · obtain ⟨-, rfl⟩ := Prod.mk.inj (Option.some.inj h1)
          intro x hx
          exact hs x (by rw [he]; exact List.mem_cons_of_mem _ hx)
        · cases h1
      · cases h1
    | due t => obtain ⟨-, rfl⟩ := Prod.mk.inj (Option.some.inj h1); exact hs
    | next t => obtain ⟨-, rfl⟩ := Prod.mk.inj (Option.some.inj h1); exact hs

/-- C123 (exact). After any history of calls within the limits of C35, `to_string` gives the remaining times of the pending events in the order of their deadlines,
each followed by a comma, as of the readings of the second pass; a debug build stops with a failed assertion if the text has become longer than
in the first pass, or if the capacity of the string is not the number of characters that was reserved. -/
theorem C123_exact {n : Nat} (hn : n < sizeMod) (heap : ω → Event δ) (ops : List (Agenda.Op ω))
    (hmono : (ops.map (·.time)).Pairwise (· ≤ ·)) (hrange : ∀ op ∈ ops, 0 ≤ op.time ∧ op.time ≤ 2 ^ 24)
    {outs : List (Agenda.Out ω)} {st : Agenda.State ω} (h : Agenda.run n (2 ^ 23) id ⟨[], 0⟩ ops = some (outs, st))
    {reads reads' : Nat → Int} (hr : ∀ i, 0 ≤ reads i ∧ reads i ≤ 2 ^ 24) (hr' : ∀ i, 0 ≤ reads' i ∧ reads' i ≤ 2 ^ 24) (room : Nat → Nat) :
    ∃ p texts texts', Pipe.run b { vec := Vec.create (sharedPtr ω) n, heap } ops = .ok (outs, p) ∧
      Shows reads 0 st.items texts ∧ Shows reads' 0 st.items texts' ∧
      p.toText b room reads reads' =
        if b = .debug ∧ ((framed texts').length > (framed texts).length ∨ room (framed texts).length ≠ (framed texts).length) then .error .assertFailed
        else .ok (framed texts') := by
  have hsee : ∀ op ∈ ops, id op.time = near op.time := by
    intro op ho
    rw [near_eq (by rw [abs_of_nonneg (hrange op ho).1]; exact (hrange op ho).2)]; rfl
  rw [Agenda.run_see ops _ hsee] at h
  obtain ⟨p, now', e1, e2, e3⟩ := Pipe.run_spec (b := b) ops (now := 0) (Pipe.Rep.start n hn heap 0) (by simp) (by simp)
    (fun op ho => (hrange op ho).1) hmono (fun op ho => ⟨(hrange op ho).1, (hrange op ho).2.trans (by norm_num)⟩) h
  have hq := deadlines (le_refl _) ops hrange (by simp) h
  obtain ⟨ws, s1, l1⟩ := listed_spec e2 hr hq (p.vec.size + 1) 0 (by omega) (by rw [e2.size]; omega)
  obtain ⟨ws', s2, l2⟩ := listed_spec e2 hr' hq (p.vec.size + 1) 0 (by omega) (by rw [e2.size]; omega)
  rw [Nat.add_zero] at l1 l2
  refine ⟨p, ws, ws', e1, s1, s2, ?_⟩
  have p1 : p.pass reads = .ok (framed ws) := by rw [pass, l1]; rfl
  have p2 : p.pass reads' = .ok (framed ws') := by rw [pass, l2]; rfl
  simp only [toText, p1, p2, res_bind_ok]
  generalize framed ws = a
  generalize framed ws' = a'
  cases b with
  | release => simp
  | debug =>
    by_cases c1 : a'.length ≤ a.length
    · by_cases c2 : room a.length = a.length
      · rw [if_neg (by rintro ⟨-, h | h⟩; omega; exact h c2)]
        simp [c1, c2]
      · rw [if_pos ⟨rfl, .inr c2⟩]
        simp only [c1, decide_true, spnAssert_true, res_bind_ok, beq_eq_false_iff_ne.mpr c2]; rfl
    · rw [if_pos ⟨rfl, .inl (by omega)⟩]
      simp only [c1, decide_false]; rfl

/-- What a pipeline with the given remaining times should look like: the times, with commas in between. -/
def wanted (texts : List (List Char)) : List Char := "Pipeline: [".toList ++ (texts.intersperse ", ".toList).flatten ++ "]".toList

private theorem framed_wanted : ∀ (texts : List (List Char)), texts ≠ [] → framed texts ≠ wanted texts := by
  have key : ∀ texts : List (List Char), texts ≠ [] →
      ((texts.map (· ++ ", ".toList)).flatten).length = ((texts.intersperse ", ".toList).flatten).length + 2 := by
    intro texts
    induction texts with
    | nil => intro h; exact absurd rfl h
    | cons w ws ih =>
      intro _
      cases ws with
      | nil => simp only [List.map_cons, List.map_nil, List.flatten_cons, List.flatten_nil, List.intersperse_single, List.append_nil, List.length_append]; rfl
      | cons w' ws =>
        have := ih (by simp)
        generalize ", ".toList = c at this ⊢
        simp only [List.map_cons, List.flatten_cons, List.intersperse_cons₂, List.length_append] at this ⊢
        omega
  intro texts h e
  have := congrArg List.length e
  unfold framed wanted at this
  generalize "Pipeline: [".toList = u, "]".toList = v at this
  rw [List.length_append, List.length_append, List.length_append, List.length_append, key texts h] at this
  omega

theorem Shows.length {reads : Nat → Int} : ∀ {q : List (Item ω)} {k : Nat} {ws : List (List Char)}, Shows reads k q ws → ws.length = q.length
  | [], _, [], _ => rfl
  | x :: q, k, w :: ws, h => by rw [List.length_cons, List.length_cons, Shows.length h.2]
  | [], _, _ :: _, h => absurd h (by simp [Shows])
  | _ :: _, _, [], h => absurd h (by simp [Shows])

/-- C123 (partial). After any history of calls within the limits of C35, with a clock that stands still during the call, and in a release build or with a library
that reserves exactly what it is asked for, `to_string` lists the remaining times of the pending events in the order of their deadlines.
Missing: no comma behind the last time (`C123_comma_counterexample`), other libraries (`C123_capacity_counterexample`), a ticking clock (`C123_tick_counterexample`). -/
theorem C123_text_partial {n : Nat} (hn : n < sizeMod) (heap : ω → Event δ) (ops : List (Agenda.Op ω))
    (hmono : (ops.map (·.time)).Pairwise (· ≤ ·)) (hrange : ∀ op ∈ ops, 0 ≤ op.time ∧ op.time ≤ 2 ^ 24)
    {outs : List (Agenda.Out ω)} {st : Agenda.State ω} (h : Agenda.run n (2 ^ 23) id ⟨[], 0⟩ ops = some (outs, st))
    {t : Int} (ht : 0 ≤ t ∧ t ≤ 2 ^ 24) (room : Nat → Nat) (hroom : b = .release ∨ ∀ k, room k = k) :
    ∃ p texts, Pipe.run b { vec := Vec.create (sharedPtr ω) n, heap } ops = .ok (outs, p) ∧ Shows (fun _ => t) 0 st.items texts ∧
      p.toText b room (fun _ => t) (fun _ => t) = .ok ("Pipeline: [".toList ++ (texts.map (· ++ ", ".toList)).flatten ++ "]".toList) := by
  obtain ⟨p, ws, ws', h1, h2, h3, h4⟩ := C123_exact (b := b) hn heap ops hmono hrange h (reads := fun _ => t) (reads' := fun _ => t) (fun _ => ht) (fun _ => ht) room
  have same : ∀ {q : List (Item ω)} {k : Nat} {a c : List (List Char)}, Shows (fun _ => t) k q a → Shows (fun _ => t) k q c → a = c := by
    intro q
    induction q with
    | nil => intro k a c ha hc; cases a <;> cases c <;> simp_all [Shows]
    | cons x q ih =>
      intro k a c ha hc
      cases a with
      | nil => simp [Shows] at ha
      | cons u us =>
        cases c with
        | nil => simp [Shows] at hc
        | cons v vs =>
          have := ha.1.symm.trans hc.1
          rw [Except.ok.inj this, ih ha.2 hc.2]
  obtain rfl := same h2 h3
  refine ⟨p, ws, h1, h2, ?_⟩
  rw [h4, if_neg]
  · rfl
  · rintro ⟨rfl, h | h⟩
    · exact Nat.lt_irrefl _ h
    · rcases hroom with hb | hr
      · cases hb
      · exact h (hr _)

/-- C123 is false: whenever an event is pending, the text has a comma behind the last time. -/
theorem C123_comma_counterexample {n : Nat} (hn : n < sizeMod) (heap : ω → Event δ) (ops : List (Agenda.Op ω))
    (hmono : (ops.map (·.time)).Pairwise (· ≤ ·)) (hrange : ∀ op ∈ ops, 0 ≤ op.time ∧ op.time ≤ 2 ^ 24)
    {outs : List (Agenda.Out ω)} {st : Agenda.State ω} (h : Agenda.run n (2 ^ 23) id ⟨[], 0⟩ ops = some (outs, st)) (hne : st.items ≠ [])
    {t : Int} (ht : 0 ≤ t ∧ t ≤ 2 ^ 24) (room : Nat → Nat) :
    ∃ p texts text, Pipe.run .release { vec := Vec.create (sharedPtr ω) n, heap } ops = .ok (outs, p) ∧ Shows (fun _ => t) 0 st.items texts ∧
      p.toText .release room (fun _ => t) (fun _ => t) = .ok text ∧ text ≠ wanted texts := by
  obtain ⟨p, ws, h1, h2, h3⟩ := C123_text_partial (b := .release) hn heap ops hmono hrange h ht room (.inl rfl)
  refine ⟨p, ws, _, h1, h2, h3, framed_wanted ws ?_⟩
  intro he
  have := h2.length
  rw [he] at this
  exact hne (List.eq_nil_of_length_eq_zero this.symm)

/-- C123 is false: in a debug build, the text of an empty pipeline stops with a failed assertion on every library whose empty strings have room for more than 12
characters, as those that keep short texts in the object do (15 characters in libstdc++, 22 in libc++). -/
theorem C123_capacity_counterexample (n : Nat) (hn : n < sizeMod) (heap : ω → Event δ) (room : Nat → Nat) (hroom : room 12 ≠ 12) (reads reads' : Nat → Int) :
    Pipe.toText .debug { vec := Vec.create (sharedPtr ω) n, heap } room reads reads' = .error .assertFailed := by
  have e : ∀ r, Pipe.pass { vec := Vec.create (sharedPtr ω) n, heap } r = .ok "Pipeline: []".toList := by
    intro r
    have : (Vec.create (sharedPtr ω) n).head = (Vec.create (sharedPtr ω) n).tail := rfl
    simp only [Pipe.pass, listed, this, if_true, res_bind_ok, res_pure]
    rfl
  simp only [toText, e, res_bind_ok]
  have : (room "Pipeline: []".toList.length == "Pipeline: []".toList.length) = false := beq_eq_false_iff_ne.mpr hroom
  rw [this]
  rfl

/-- C123 is false when the clock ticks during the call: 1000 ms are written as one second, 999 ms as `999ms`, which is longer than what was reserved. -/
theorem C123_tick_counterexample :
    (do let (_, p) ← (blankPipe 2).run .debug [.push 0 0 1000]
        p.toText .debug id (fun _ => 0) (fun _ => 1) : Res (List Char)) = .error .assertFailed ∧
    (do let (_, p) ← (blankPipe 2).run .release [.push 0 0 1000]
        p.toText .release id (fun _ => 0) (fun _ => 1) : Res (List Char)) = .ok "Pipeline: [999ms, ]".toList := by
  decide +kernel

/-- Non-vacuity: three pending events, one of them overdue. -/
example : (do let (_, p) ← (blankPipe 5).run b [.push 0 0 30, .push 5 1 10, .push 5 2 60000]
              p.toText b id (fun _ => 20) (fun _ => 20) : Res (List Char)) = .ok "Pipeline: [-5000us, 10ms, 60s, ]".toList := by
  cases b <;> decide +kernel

end Pipe
end Spine
