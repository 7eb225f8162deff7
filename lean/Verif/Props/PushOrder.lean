import Verif.Props.EventSystem
/-!
# C194: the order in which events with different deadlines are pushed does not matter
-/

namespace Spine

variable {ω δ : Type} [DecidableEq ω]

namespace Agenda

/-- The same objects with the same deadlines in the same order. -/
def Alike (s s' : State ω) : Prop := (s.items.map fun x => (x.obj, x.deadline)) = s'.items.map fun x => (x.obj, x.deadline)

theorem alike_insert {q q' : List (Item ω)} {x x' : Item ω} (h : (q.map fun x => (x.obj, x.deadline)) = q'.map fun x => (x.obj, x.deadline)) (ho : x.obj = x'.obj) (hd : x.deadline = x'.deadline) :
    ((insert x q).map fun x => (x.obj, x.deadline)) = (insert x' q').map fun x => (x.obj, x.deadline) := by
  induction q generalizing q' with
  | nil =>
    cases q' with
    | nil => simp [insert, ho, hd]
    | cons => simp at h
  | cons y q ih =>
    cases q' with
    | nil => simp at h
    | cons y' q' =>
      simp only [List.map_cons, List.cons.injEq, Prod.mk.injEq] at h
      obtain ⟨⟨h1, h2⟩, h3⟩ := h
      have := ih h3
      simp only [insert, List.takeWhile_cons, List.dropWhile_cons, ← h2, ← hd] at this ⊢
      by_cases c : y.deadline ≤ x.deadline
      · simp only [c, decide_true, if_true, List.cons_append, List.map_cons, List.cons.injEq, Prod.mk.injEq]
        exact ⟨⟨h1, h2⟩, this⟩
      · simp only [c, decide_false, if_false, Bool.false_eq_true, List.nil_append, List.map_cons]
        rw [ho, hd, h1, h2, h3]

theorem insert_comm {x y : Item ω} (h : x.deadline < y.deadline) (q : List (Item ω)) : insert x (insert y q) = insert y (insert x q) := by
  induction q with
  | nil =>
    have h' : ¬y.deadline ≤ x.deadline := by omega
    have h'' : x.deadline ≤ y.deadline := by omega
    simp [insert, List.takeWhile_cons, List.dropWhile_cons, h', h'']
  | cons z q ih =>
    have e : ∀ (x : Item ω) (l : List (Item ω)), insert x (z :: l) = if z.deadline ≤ x.deadline then z :: insert x l else x :: z :: l := by
      intro x l
      by_cases c : z.deadline ≤ x.deadline <;> simp [insert, List.takeWhile_cons, List.dropWhile_cons, c]
    by_cases c : z.deadline ≤ x.deadline
    · have c' : z.deadline ≤ y.deadline := by omega
      rw [e y q, if_pos c', e x q, if_pos c, e x, if_pos c, e y, if_pos c', ih]
    · by_cases c' : z.deadline ≤ y.deadline
      · rw [e y q, if_pos c', e x q, if_neg c, e x, if_neg c]
        have h'' : x.deadline ≤ y.deadline := by omega
        simp only [insert, List.takeWhile_cons, List.dropWhile_cons, h'', c', decide_true, if_true, List.cons_append]
      · rw [e y q, if_neg c', e x q, if_neg c]
        have h' : ¬y.deadline ≤ x.deadline := by omega
        have h'' : x.deadline ≤ y.deadline := by omega
        simp [insert, List.takeWhile_cons, List.dropWhile_cons, h', h'', c']

theorem length_insert (x : Item ω) (q : List (Item ω)) : (insert x q).length = q.length + 1 := by
  unfold insert
  rw [List.length_append, List.length_cons, ← Nat.add_assoc, ← List.length_append, List.takeWhile_append_dropWhile]

theorem mem_insert_obj {o : ω} {x : Item ω} {q : List (Item ω)} : o ∈ (insert x q).map (·.obj) ↔ o = x.obj ∨ o ∈ q.map (·.obj) := by
  have : o ∈ q.map (·.obj) ↔ o ∈ (q.takeWhile (fun y => decide (y.deadline ≤ x.deadline)) ++ q.dropWhile (fun y => decide (y.deadline ≤ x.deadline))).map (·.obj) := by rw [List.takeWhile_append_dropWhile]
  rw [this]
  unfold insert
  simp only [List.map_append, List.map_cons, List.mem_append, List.mem_cons]
  tauto

theorem Alike.length {s s' : State ω} (h : Alike s s') : s.items.length = s'.items.length := by
  have := congrArg List.length h
  simpa using this

theorem Alike.objs {s s' : State ω} (h : Alike s s') : s.items.map (·.obj) = s'.items.map (·.obj) := by
  have := congrArg (List.map Prod.fst) h
  simpa [List.map_map, Function.comp_def] using this

theorem Alike.step {cap : Nat} {longest : Int} {see : Int → Int} {s s' t : State ω} (h : Alike s s') {op : Op ω} {o : Out ω} (e : Agenda.step cap longest see s op = some (o, t)) :
    ∃ t', Agenda.step cap longest see s' op = some (o, t') ∧ Alike t t' := by
  cases op with
  | push now x d =>
    simp only [Agenda.step] at e ⊢
    split at e
    · rename_i c
      cases e
      rw [h.length, h.objs] at c
      rw [if_pos c]
      exact ⟨_, rfl, alike_insert h rfl rfl⟩
    · cases e
  | expire now =>
    obtain ⟨is, k⟩ := s
    obtain ⟨is', k'⟩ := s'
    cases is with
    | nil => cases e
    | cons x is =>
      cases is' with
      | nil => simp [Alike] at h
      | cons x' is' =>
        simp only [Alike, List.map_cons, List.cons.injEq, Prod.mk.injEq] at h
        obtain ⟨⟨h1, h2⟩, h3⟩ := h
        simp only [Agenda.step, ← h1, ← h2] at e ⊢
        split at e
        · rename_i c
          cases e
          rw [if_pos c]
          exact ⟨_, rfl, h3⟩
        · cases e
  | due now =>
    obtain ⟨is, k⟩ := s
    obtain ⟨is', k'⟩ := s'
    cases e
    refine ⟨_, ?_, h⟩
    cases is with
    | nil => cases is' with
      | nil => rfl
      | cons => simp [Alike] at h
    | cons x is => cases is' with
      | nil => simp [Alike] at h
      | cons x' is' =>
        simp only [Alike, List.map_cons, List.cons.injEq, Prod.mk.injEq] at h
        simp only [Agenda.step, List.head?_cons, Option.any_some, h.1.2]
  | next now =>
    obtain ⟨is, k⟩ := s
    obtain ⟨is', k'⟩ := s'
    cases e
    refine ⟨_, ?_, h⟩
    cases is with
    | nil => cases is' with
      | nil => rfl
      | cons => simp [Alike] at h
    | cons x is => cases is' with
      | nil => simp [Alike] at h
      | cons x' is' =>
        simp only [Alike, List.map_cons, List.cons.injEq, Prod.mk.injEq] at h
        simp only [Agenda.step, List.head?_cons, h.1.2]

theorem run_cons {cap : Nat} {longest : Int} {see : Int → Int} {s t : State ω} {op : Op ω} {ops : List (Op ω)} {os : List (Out ω)} :
    run cap longest see s (op :: ops) = some (os, t) ↔ ∃ o u os', step cap longest see s op = some (o, u) ∧ run cap longest see u ops = some (os', t) ∧ os = o :: os' := by
  rw [run]
  constructor
  · intro h
    cases h1 : step cap longest see s op with
    | none => rw [h1] at h; cases h
    | some r =>
      obtain ⟨o, u⟩ := r
      rw [h1] at h
      cases h2 : run cap longest see u ops with
      | none => simp [h2] at h
      | some r' =>
        obtain ⟨os', t'⟩ := r'
        simp [h2] at h
        exact ⟨o, u, os', rfl, by rw [h2, h.2], h.1.symm⟩
  · rintro ⟨o, u, os', h1, h2, rfl⟩
    simp [h1, h2]

theorem Alike.run {cap : Nat} {longest : Int} {see : Int → Int} (ops : List (Op ω)) : ∀ {s s' t : State ω} {os : List (Out ω)}, Alike s s' → Agenda.run cap longest see s ops = some (os, t) →
    ∃ t', Agenda.run cap longest see s' ops = some (os, t') ∧ Alike t t' := by
  induction ops with
  | nil => intro s s' t os h e; cases e; exact ⟨_, rfl, h⟩
  | cons op ops ih =>
    intro s s' t os h e
    obtain ⟨o, u, os', e1, e2, rfl⟩ := run_cons.mp e
    obtain ⟨u', e3, h1⟩ := h.step e1
    obtain ⟨t', e4, h2⟩ := ih h1 e2
    exact ⟨t', run_cons.mpr ⟨_, _, _, e3, e4, rfl⟩, h2⟩

theorem run_append {cap : Nat} {longest : Int} {see : Int → Int} (ops ops' : List (Op ω)) : ∀ {s t : State ω} {os : List (Out ω)},
    run cap longest see s (ops ++ ops') = some (os, t) ↔ ∃ u o1 o2, run cap longest see s ops = some (o1, u) ∧ run cap longest see u ops' = some (o2, t) ∧ os = o1 ++ o2 := by
  induction ops with
  | nil =>
    intro s t os
    constructor
    · intro h; exact ⟨s, [], os, rfl, h, rfl⟩
    · rintro ⟨u, o1, o2, h1, h2, rfl⟩
      cases h1; exact h2
  | cons op ops ih =>
    intro s t os
    rw [List.cons_append, run_cons]
    constructor
    · rintro ⟨o, u, os', h1, h2, rfl⟩
      obtain ⟨w, o1, o2, h3, h4, rfl⟩ := ih.mp h2
      exact ⟨w, o :: o1, o2, run_cons.mpr ⟨_, _, _, h1, h3, rfl⟩, h4, rfl⟩
    · rintro ⟨w, o1, o2, h1, h2, rfl⟩
      obtain ⟨o, u, os', h3, h4, rfl⟩ := run_cons.mp h1
      exact ⟨o, u, os' ++ o2, h3, ih.mpr ⟨w, os', o2, h4, h2, rfl⟩, rfl⟩

/-- Pushes at one time. -/
def pushes (now : Int) (ps : List (ω × Int)) : List (Op ω) := ps.map fun p => .push now p.1 p.2

theorem pushes_perm {cap : Nat} {longest : Int} {see : Int → Int} {now : Int} {ps ps' : List (ω × Int)} (hp : ps.Perm ps') : ∀ {s t : State ω} {os : List (Out ω)}, (ps.map (·.2)).Nodup →
    run cap longest see s (pushes now ps) = some (os, t) → ∃ t', run cap longest see s (pushes now ps') = some (os, t') ∧ Alike t t' := by
  induction hp with
  | nil => intro s t os _ h; exact ⟨t, h, rfl⟩
  | cons p _ ih =>
    intro s t os hn h
    obtain ⟨o, u, os', e1, e2, rfl⟩ := run_cons.mp h
    obtain ⟨t', e3, h1⟩ := ih (List.nodup_cons.mp hn).2 e2
    exact ⟨t', run_cons.mpr ⟨_, _, _, e1, e3, rfl⟩, h1⟩
  | swap p q l =>
    intro s t os hn h
    obtain ⟨o, u, os', e1, e2, rfl⟩ := run_cons.mp h
    obtain ⟨o', w, os'', e3, e4, rfl⟩ := run_cons.mp e2
    have hne : q.2 ≠ p.2 := by
      intro c
      simp [c] at hn
    simp only [step] at e1 e3
    split at e1
    · rename_i c1
      cases e1
      split at e3
      · rename_i c2
        cases e3
        obtain ⟨a1, a2, a3, a4⟩ := c1
        obtain ⟨b1, b2, b3, b4⟩ := c2
        rw [mem_insert_obj, not_or] at b2
        rw [length_insert] at b1
        have x1 : s.items.length < cap ∧ p.1 ∉ s.items.map (·.obj) ∧ 0 < p.2 ∧ p.2 ≤ longest := ⟨by omega, b2.2, b3, b4⟩
        have x2 : (insert (⟨p.1, now + p.2, s.made⟩ : Item ω) s.items).length < cap ∧ q.1 ∉ (insert (⟨p.1, now + p.2, s.made⟩ : Item ω) s.items).map (·.obj) ∧ 0 < q.2 ∧ q.2 ≤ longest := by
          rw [length_insert, mem_insert_obj, not_or]
          exact ⟨by omega, ⟨fun c => b2.1 c.symm, a2⟩, a3, a4⟩
        have al : Alike (⟨insert ⟨p.1, now + p.2, s.made + 1⟩ (insert ⟨q.1, now + q.2, s.made⟩ s.items), s.made + 1 + 1⟩ : State ω)
            ⟨insert ⟨q.1, now + q.2, s.made + 1⟩ (insert ⟨p.1, now + p.2, s.made⟩ s.items), s.made + 1 + 1⟩ := by
          have i1 : ((insert (⟨p.1, now + p.2, s.made + 1⟩ : Item ω) (insert ⟨q.1, now + q.2, s.made⟩ s.items)).map fun x => (x.obj, x.deadline)) =
              (insert (⟨p.1, now + p.2, s.made⟩ : Item ω) (insert ⟨q.1, now + q.2, s.made + 1⟩ s.items)).map fun x => (x.obj, x.deadline) :=
            alike_insert (alike_insert rfl rfl rfl) rfl rfl
          have i2 : insert (⟨p.1, now + p.2, s.made⟩ : Item ω) (insert ⟨q.1, now + q.2, s.made + 1⟩ s.items) = insert ⟨q.1, now + q.2, s.made + 1⟩ (insert ⟨p.1, now + p.2, s.made⟩ s.items) := by
            rcases lt_or_gt_of_ne hne with c | c
            · exact (insert_comm (by simpa using c) _).symm
            · exact insert_comm (by simpa using c) _
          exact i1.trans (by rw [i2])
        obtain ⟨t', e5, h1⟩ := al.run _ e4
        refine ⟨t', run_cons.mpr ⟨.unit, ⟨insert ⟨p.1, now + p.2, s.made⟩ s.items, s.made + 1⟩, _, ?_, run_cons.mpr ⟨.unit, _, _, ?_, e5, rfl⟩, rfl⟩, h1⟩
        · simp only [step, if_pos x1]
        · simp only [step, if_pos x2]
      · cases e3
    · cases e1
  | trans h1 _ ih1 ih2 =>
    intro s t os hn h
    obtain ⟨t', e1, a1⟩ := ih1 hn h
    obtain ⟨t'', e2, a2⟩ := ih2 ((h1.map _).nodup_iff.mp hn) e1
    exact ⟨t'', e2, a1.trans a2⟩

end Agenda

variable {b : Build}

/-- **C194**, partial. Pushes at one time, with different delays, in two orders: whatever is done before and afterwards, all answers are the same, and at the end the pipeline holds the same.
Missing: the clock advancing during the pushes, delays above 2^23 ms, and clocks above 2^40 ms, as in C35. -/
theorem C194_order_partial {n : Nat} (hn : n < sizeMod) (heap : ω → Event δ) {before after : List (Agenda.Op ω)} {now : Int} {ps ps' : List (ω × Int)} (hp : ps.Perm ps') (hd : (ps.map (·.2)).Nodup)
    (hmono : ((before ++ (ps.map fun p => Agenda.Op.push now p.1 p.2) ++ after).map (·.time)).Pairwise (· ≤ ·))
    (hrange : ∀ op ∈ before ++ (ps.map fun p => Agenda.Op.push now p.1 p.2) ++ after, 0 ≤ op.time ∧ op.time ≤ 2 ^ 40) {outs : List (Agenda.Out ω)} {st : Agenda.State ω}
    (h : Agenda.run n (2 ^ 23) near ⟨[], 0⟩ (before ++ (ps.map fun p => Agenda.Op.push now p.1 p.2) ++ after) = some (outs, st)) :
    ∃ p p' : Pipe ω δ, Pipe.run b { vec := Vec.create (sharedPtr ω) n, heap } (before ++ (ps.map fun p => Agenda.Op.push now p.1 p.2) ++ after) = .ok (outs, p) ∧
      Pipe.run b { vec := Vec.create (sharedPtr ω) n, heap } (before ++ (ps'.map fun p => Agenda.Op.push now p.1 p.2) ++ after) = .ok (outs, p') ∧
      ∃ q : List (ω × Int), p.vec.Holds (q.map fun x => some x.1) ∧ p'.vec.Holds (q.map fun x => some x.1) ∧
        ∀ x ∈ q, (p.heap x.1).timer.future = x.2 ∧ (p'.heap x.1).timer.future = x.2 := by
  have hperm : (before ++ (ps.map fun p => Agenda.Op.push now p.1 p.2) ++ after).Perm (before ++ (ps'.map fun p => Agenda.Op.push now p.1 p.2) ++ after) := ((hp.map _).append_left _).append_right _
  have htimes : ((before ++ (ps.map fun p => Agenda.Op.push now p.1 p.2) ++ after).map (·.time)) = (before ++ (ps'.map fun p => Agenda.Op.push now p.1 p.2) ++ after).map (·.time) := by
    simp only [List.map_append, List.map_map, Function.comp_def, Agenda.Op.time, List.map_const', hp.length_eq]
  obtain ⟨u, o1, o2, e1, e2, rfl⟩ := (Agenda.run_append _ _).mp h
  obtain ⟨w, o3, o4, e3, e4, rfl⟩ := (Agenda.run_append _ _).mp e1
  obtain ⟨u', e5, h1⟩ := Agenda.pushes_perm hp hd e4
  obtain ⟨st', e6, h2⟩ := h1.run after e2
  have h' : Agenda.run n (2 ^ 23) near ⟨[], 0⟩ (before ++ (ps'.map fun p => Agenda.Op.push now p.1 p.2) ++ after) = some (o3 ++ o4 ++ o2, st') :=
    (Agenda.run_append _ _).mpr ⟨u', _, _, (Agenda.run_append _ _).mpr ⟨w, _, _, e3, e5, rfl⟩, e6, rfl⟩
  obtain ⟨p, r1, r2, r3, _⟩ := C35_later_partial (b := b) hn heap _ hmono hrange h
  obtain ⟨p', s1, s2, s3, _⟩ := C35_later_partial (b := b) hn heap _ (htimes ▸ hmono) (fun op ho => hrange op (hperm.mem_iff.mpr ho)) h'
  refine ⟨p, p', r1, s1, st.items.map fun x => (x.obj, x.deadline), ?_, ?_, ?_⟩
  · simpa [List.map_map, Function.comp_def] using r2
  · rw [show (st.items.map fun x => (x.obj, x.deadline)) = st'.items.map fun x => (x.obj, x.deadline) from h2]
    simpa [List.map_map, Function.comp_def] using s2
  · intro x hx
    have hx' := hx
    rw [show (st.items.map fun x => (x.obj, x.deadline)) = st'.items.map fun x => (x.obj, x.deadline) from h2] at hx'
    obtain ⟨y, hy, rfl⟩ := List.mem_map.mp hx
    obtain ⟨y', hy', e⟩ := List.mem_map.mp hx'
    obtain ⟨e7, e8⟩ := Prod.mk.inj e
    exact ⟨r3 y hy, by rw [← e7, ← e8]; exact s3 y' hy'⟩

/-- **C194**: with equal delays the order does matter: first come, first served. -/
theorem C194_equal :
    ((blankPipe 2).run b [.push 0 0 10, .push 0 1 10, .expire 10, .expire 10]).map Prod.fst = .ok [.unit, .unit, .obj 0, .obj 1] ∧
    ((blankPipe 2).run b [.push 0 1 10, .push 0 0 10, .expire 10, .expire 10]).map Prod.fst = .ok [.unit, .unit, .obj 1, .obj 0] := by
  cases b <;> constructor <;> decide +kernel

/-- **C194**, the gap: delays above 2^23 ms that differ by one. Pushed in either order, the one pushed first stays in front. -/
theorem C194_long_delay_counterexample :
    ((blankPipe 2).run b [.push 0 0 16777217, .push 0 1 16777216]).map (fun r => r.2.vec.forward 3) = .ok (.ok [some 0, some 1]) ∧
    ((blankPipe 2).run b [.push 0 1 16777216, .push 0 0 16777217]).map (fun r => r.2.vec.forward 3) = .ok (.ok [some 1, some 0]) := by
  cases b <;> constructor <;> decide +kernel

/-- Three events pushed in two orders, among others. -/
example : ((blankPipe 5).run b [.push 0 0 30, .push 5 1 10, .push 5 2 7, .push 5 3 30, .expire 12, .expire 16, .next 20]).map Prod.fst = .ok [.unit, .unit, .unit, .unit, .obj 2, .obj 1, .time 10] ∧
    ((blankPipe 5).run b [.push 0 0 30, .push 5 3 30, .push 5 1 10, .push 5 2 7, .expire 12, .expire 16, .next 20]).map Prod.fst = .ok [.unit, .unit, .unit, .unit, .obj 2, .obj 1, .time 10] ∧
    (Agenda.run 5 (2 ^ 23) near ⟨[], 0⟩ [.push 0 0 30, .push 5 1 10, .push 5 2 7, .push 5 3 30, .expire 12, .expire 16, .next 20]).isSome = true := by
  cases b <;> refine ⟨?_, ?_, ?_⟩ <;> decide +kernel

end Spine
