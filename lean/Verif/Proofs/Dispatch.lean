import Verif.Proofs.EventSystem
/-!
# Dispatch, termination, capacity and sleep of the event system
-/

namespace Spine

theorem Vec.Rep.forward {α : Type} {n : Nat} {v : Vec α} {q : List α} (h : Vec.Rep n v q) : v.forward (v.size + 1) = .ok q := by
  have hs := h.holds.1
  obtain ⟨pre, post, log, rfl, hl, hn⟩ := h
  have := Vec.forward_loop (log := log) (pre := pre) (q := q) (post := post) (by simp only [Vec.Fits]; omega)
    (q.length + 1) 0 (by omega) (by omega)
  rw [hs]
  simpa [Vec.forward, Vec.mk'] using this

namespace ES

variable {ω δ H : Type} [DecidableEq ω] {b : Build} {beh : Behaviour ω δ H} {objs : List ω} {s s' : ES ω δ H} {q : List (Item ω)}
variable {cfg : Config}

set_option linter.unusedSectionVars false

/-! ### Who is called -/

theorem callsAt_append (d : Nat) : ∀ (l l' : List (Entry δ H)), callsAt d (l ++ l') = callsAt d l ++ callsAt d l'
  | [], l' => rfl
  | a :: l, l' => by
    have ih := callsAt_append d l l'
    cases a with
    | called h e d' t => simp only [List.cons_append, callsAt, ih]; split <;> simp
    | scheduled e t => exact ih
    | fired e t n => exact ih
    | slept t => exact ih
    | attached i h => exact ih

/-- Later calls of `attach` add handlers at the end. -/
theorem attached_append (id : Nat) (l : List (Entry δ H)) : ∀ l' : List (Entry δ H), attached l id <+: attached (l' ++ l) id
  | [] => List.prefix_refl _
  | a :: l' => by
    have ih := attached_append id l l'
    cases a with
    | attached i h =>
      simp only [List.cons_append, attached]
      split
      · exact ih.trans (List.prefix_append _ _)
      · exact ih
    | called h e d' t => exact ih
    | scheduled e t => exact ih
    | fired e t n => exact ih
    | slept t => exact ih

theorem owed_append (cap d : Nat) (old n : List (Entry δ H)) : ∀ n' : List (Entry δ H),
    owed cap d old (n' ++ n) = owed cap d old n ++ owed cap d (n ++ old) n'
  | [] => by simp [owed]
  | a :: n' => by
    have ih := owed_append cap d old n n'
    cases a with
    | fired e t k => simp only [List.cons_append, owed]; split <;> simp [ih, List.append_assoc]
    | called h e d' t => exact ih
    | scheduled e t => exact ih
    | slept t => exact ih
    | attached i h => exact ih

theorem owed_none (cap d : Nat) (old : List (Entry δ H)) : ∀ n : List (Entry δ H), (∀ e t k, Entry.fired e t k ∈ n → d < k) → owed cap d old n = []
  | [], _ => rfl
  | a :: n, h => by
    have ih := owed_none cap d old n (fun e t k hm => h e t k (by simp [hm]))
    cases a with
    | fired e t k => simp only [owed, if_neg (Nat.ne_of_gt (h e t k (by simp))), ih]
    | called h e d' t => exact ih
    | scheduled e t => exact ih
    | slept t => exact ih
    | attached i h => exact ih

/-- What a computation adds to the record: deliveries at depth `f` or more only, and calls at depth `d` or more only. -/
def Adds (f d : Nat) (s s' : ES ω δ H) (new : List (Entry δ H)) : Prop :=
  s'.trace = new ++ s.trace ∧ (∀ e t k, Entry.fired e t k ∈ new → f ≤ k) ∧ ∀ d', d' < d → callsAt d' new = []

theorem Adds.refl (f d : Nat) (s : ES ω δ H) : Adds f d s s [] := ⟨rfl, by simp, fun _ _ => rfl⟩

theorem Adds.trans {f d : Nat} {s1 s2 s3 : ES ω δ H} {n1 n2 : List (Entry δ H)} (h1 : Adds f d s1 s2 n1) (h2 : Adds f d s2 s3 n2) :
    Adds f d s1 s3 (n2 ++ n1) := by
  refine ⟨by rw [h2.1, h1.1, List.append_assoc], fun e t k hm => ?_, fun d' hd => ?_⟩
  · rcases List.mem_append.mp hm with hm | hm
    · exact h2.2.1 e t k hm
    · exact h1.2.1 e t k hm
  · rw [callsAt_append, h1.2.2 d' hd, h2.2.2 d' hd]; rfl

theorem Adds.weaken {f d f' d' : Nat} {n : List (Entry δ H)} (h : Adds f d s s' n) (hf : f' ≤ f) (hd : d' ≤ d) : Adds f' d' s s' n :=
  ⟨h.1, fun e t k hm => hf.trans (h.2.1 e t k hm), fun c hc => h.2.2 c (by omega)⟩

theorem enqueue_adds {x : Option ω} (d : Nat) (h : s.enqueue b x = .ok s') : ∃ new, Adds d d s s' new := by
  obtain ⟨o, pipe, rfl, _, rfl⟩ := enqueue_ok h
  exact ⟨[.scheduled _ _], rfl, by simp, fun _ _ => rfl⟩

theorem exec_adds {call : ES ω δ H → Event δ → Res (ES ω δ H)} {poll : ES ω δ H → Res (ES ω δ H)} {d : Nat}
    (hc : ∀ s e s', call s e = .ok s' → ∃ new, Adds d d s s' new) (hl : ∀ s s', poll s = .ok s' → ∃ new, Adds d d s s' new)
    (p : Prog ω δ H) : ∀ (s s' : ES ω δ H), s.exec b call poll p = .ok s' → ∃ new, Adds d d s s' new := by
  induction p with
  | attach id x k ih =>
    intro s s' h
    rw [exec, bind_ok] at h
    obtain ⟨s1, h1, h2⟩ := h
    obtain ⟨n, hn⟩ := ih _ _ h2
    obtain ⟨_, _, _, _, _, ht, _⟩ := attach_keeps (objs := []) h1
    have h5 : Adds d d s s1 [.attached id x] := ⟨ht, by simp, fun _ _ => rfl⟩
    exact ⟨_, h5.trans hn⟩
  | loop k ih =>
    intro s s' h
    rw [exec, bind_ok] at h
    obtain ⟨s1, h1, h2⟩ := h
    obtain ⟨n, hn⟩ := ih _ _ h2
    obtain ⟨n', hn'⟩ := hl _ _ h1
    exact ⟨_, hn'.trans hn⟩
  | done => intro s s' h; cases h; exact ⟨[], Adds.refl d d s⟩
  | now k ih => intro s s' h; exact ih s.clock s s' h
  | wait ms k ih =>
    intro s s' h
    obtain ⟨n, hn⟩ := ih _ _ h
    exact ⟨n, hn⟩
  | schedule id delay data k ih =>
    intro s s' h
    rw [exec, bind_ok] at h
    obtain ⟨s1, h1, h2⟩ := h
    obtain ⟨n, hn⟩ := ih _ _ h2
    unfold schedule at h1
    rw [bind_ok] at h1
    obtain ⟨⟨x, s0⟩, h3, h4⟩ := h1
    have hf := fetch_grows h3
    obtain ⟨n', hn'⟩ := enqueue_adds d h4
    have h5 : Adds d d s s1 n' := ⟨by rw [hn'.1, hf.trace], hn'.2⟩
    exact ⟨_, h5.trans hn⟩
  | trigger id data k ih =>
    intro s s' h
    rw [exec, bind_ok] at h
    obtain ⟨s1, h1, h2⟩ := h
    obtain ⟨n, hn⟩ := ih _ _ h2
    unfold triggerId at h1
    rw [bind_ok] at h1
    obtain ⟨⟨x, s0⟩, h3, h1⟩ := h1
    simp only [bind_ok] at h1
    obtain ⟨_, _, o, h4, s2, h5, h6⟩ := h1
    rw [res_pure] at h6
    obtain rfl := Except.ok.inj h6
    obtain ⟨n', hn'⟩ := hc _ _ _ h5
    have hf := fetch_grows h3
    have h7 : Adds d d s (s2.unhold o) n' := ⟨by rw [← hf.trace]; exact hn'.1, hn'.2⟩
    exact ⟨_, h7.trans hn⟩
  | event id delay data k ih =>
    intro s s' h
    rw [exec, bind_ok] at h
    obtain ⟨⟨x, s1⟩, h1, h2⟩ := h
    obtain ⟨n, hn⟩ := ih _ _ _ h2
    unfold event at h1
    rw [bind_ok] at h1
    obtain ⟨⟨y, s0⟩, h3, h4⟩ := h1
    cases h4
    have hf := fetch_grows h3
    exact ⟨n, by rw [← hf.trace]; exact hn.1, hn.2⟩
  | submit o k ih =>
    intro s s' h
    rw [exec, bind_ok] at h
    obtain ⟨s1, h1, h2⟩ := h
    rw [bind_ok] at h2
    obtain ⟨s2, h3, h4⟩ := h2
    obtain ⟨n, hn⟩ := ih _ _ h4
    obtain ⟨n', hn'⟩ := enqueue_adds d h3
    unfold give at h1
    split at h1
    · cases h1
    · cases h1; exact ⟨_, Adds.trans (s1 := s) ⟨hn'.1, hn'.2⟩ hn⟩
  | drop o k ih =>
    intro s s' h
    rw [exec, bind_ok] at h
    obtain ⟨s1, h1, h2⟩ := h
    obtain ⟨n, hn⟩ := ih _ _ h2
    unfold give at h1
    split at h1
    · cases h1
    · cases h1; exact ⟨n, hn.1, hn.2⟩

theorem handle_adds {call : ES ω δ H → Event δ → Res (ES ω δ H)} {poll : ES ω δ H → Res (ES ω δ H)} {d : Nat}
    (hc : ∀ s e s', call s e = .ok s' → ∃ new, Adds (d + 1) (d + 1) s s' new)
    (hl : ∀ s s', poll s = .ok s' → ∃ new, Adds (d + 1) (d + 1) s s' new) {e : Event δ} {x : Option H}
    (h : handle b beh call poll d e s x = .ok s') :
    ∃ y new, x = some y ∧ Adds (d + 1) d s s' new ∧ callsAt d new = [(y, e)] := by
  unfold handle at h
  rw [bind_ok] at h
  obtain ⟨y, hy, h⟩ := h
  obtain ⟨n, h1, h2, h3⟩ := exec_adds hc hl _ _ _ h
  refine ⟨y, n ++ [.called y e d s.clock], deref_ok hy, ⟨by rw [h1, List.append_assoc]; rfl, ?_, ?_⟩, ?_⟩
  · intro e' t k hm
    simp only [List.mem_append, List.mem_singleton, reduceCtorEq, or_false] at hm
    exact h2 e' t k hm
  · intro d' hd
    rw [callsAt_append, h3 d' (by omega)]
    simp [callsAt, Nat.ne_of_gt hd]
  · rw [callsAt_append, h3 d (by omega)]
    simp [callsAt]

/-- The range-based `for` calls the handlers that were attached when it began. -/
theorem visit_adds {f : ES ω δ H → Option H → Res (ES ω δ H)} {d : Nat} {e : Event δ} {id : Nat} {hs : List (Option H)}
    (hf : ∀ s x s', f s x = .ok s' → Grows s s' ∧ ∃ y new, x = some y ∧ Adds (d + 1) d s s' new ∧ callsAt d new = [(y, e)]) :
    ∀ (n i : Nat) (s s' : ES ω δ H), MapRep s → hs <+: (attached s.trace id).take s.cfg.handlerCap → i + n = hs.length →
      visit f id n i s = .ok s' →
      ∃ new, Adds (d + 1) d s s' new ∧ (callsAt d new).reverse.map (fun c => (some c.1, c.2)) = (hs.drop i).map (fun x => (x, e))
  | 0, i, s, s', _, _, hi, h => by
    cases h
    exact ⟨[], Adds.refl _ d s, by rw [List.drop_of_length_le (by omega)]; rfl⟩
  | n + 1, i, s, s', hm, hp, hi, h => by
    obtain ⟨v, x, s1, hv, hx, h1, h2⟩ := visit_step h
    obtain ⟨hg, y, new, rfl, h3, h4⟩ := hf _ _ _ h1
    obtain ⟨post, log, rfl, hl⟩ := hm.slot id v hv
    have hp1 : hs <+: (attached s1.trace id).take s1.cfg.handlerCap := by
      refine hp.trans ?_
      rw [hg.cfg, h3.1]
      obtain ⟨r, hr⟩ := attached_append id s.trace new
      rw [← hr, List.take_append]
      exact List.prefix_append _ _
    obtain ⟨new', h5, h6⟩ := visit_adds hf n (i + 1) s1 s' (hg.map hm) hp1 (by omega) h2
    refine ⟨_, h3.trans h5, ?_⟩
    have hget : hs[i]? = some (some y) := by
      obtain ⟨r, hr⟩ := hp
      simp only [Vec.mk', List.nil_append] at hx
      rw [← hr, List.append_assoc, List.getElem?_append_left (by omega)] at hx
      exact hx
    have hlt : i < hs.length := by omega
    have hyi : hs[i] = some y := by
      rw [List.getElem?_eq_getElem hlt] at hget; exact Option.some.inj hget
    rw [callsAt_append, h4, List.reverse_append, List.map_append, h6, List.drop_eq_getElem_cons hlt, hyi]
    simp

/-- A `trigger(const Event&)` at a depth that calls the handlers attached. -/
def Calls (d : Nat) (call : ES ω δ H → Event δ → Res (ES ω δ H)) : Prop :=
  ∀ s e s', call s e = .ok s' → Grows s s' ∧ (MapRep s → ∃ new, Adds (d + 1) d s s' new ∧
    (callsAt d new).reverse.map (fun c => (some c.1, c.2)) = ((attached s.trace e.id).take s.cfg.handlerCap).map (fun x => (x, e)))

theorem sleep_adds (d : Nat) (h : s.sleep b = .ok s') : ∃ new, Adds d d s s' new ∧ (∀ k, callsAt k new = []) ∧ ∀ e t k, Entry.fired e t k ∉ new := by
  have key : ∀ ms, ∃ new, Adds d d s (s.sleepFor ms) new ∧ (∀ k, callsAt k new = []) ∧ ∀ e t k, Entry.fired e t k ∉ new := fun ms =>
    ⟨[.slept ms], ⟨rfl, by simp, fun _ _ => rfl⟩, fun _ => rfl, by simp⟩
  unfold sleep at h
  split at h
  · split at h
    · rw [bind_ok] at h
      obtain ⟨_, _, h⟩ := h
      rw [res_pure] at h; rw [← Except.ok.inj h]; exact key _
    · rw [bind_ok] at h
      obtain ⟨_, _, h⟩ := h
      rw [res_pure] at h; rw [← Except.ok.inj h]; exact key _
  · rw [← Except.ok.inj h]; exact ⟨[], Adds.refl d d s, fun _ => rfl, by simp⟩

theorem drain_adds {call : ES ω δ H → Event δ → Res (ES ω δ H)} {d : Nat} (hc : ∀ s e s', call s e = .ok s' → ∃ new, Adds (d + 1) d s s' new) :
    ∀ (fuel : Nat) (s s' : ES ω δ H), s.drainWith b call d fuel = .ok s' → ∃ new, Adds d d s s' new
  | 0, s, s', h => by cases h
  | fuel + 1, s, s', h => by
    obtain ⟨due, pipe, h1, hor⟩ := drain_step h
    rcases hor with ⟨hd, rfl⟩ | ⟨hd, o, pipe', s2, h2, h3, h4⟩
    · exact ⟨[], rfl, by simp, fun _ _ => rfl⟩
    · obtain ⟨n, hn⟩ := hc _ _ _ h3
      obtain ⟨n', hn'⟩ := drain_adds hc fuel _ _ h4
      have h5 : Adds d d s (s2.unhold o) (n ++ [.fired (pipe'.heap o) s.clock d]) := by
        refine ⟨by rw [List.append_assoc]; exact hn.1, fun e t k hm => ?_, fun d' hd' => ?_⟩
        · simp only [List.mem_append, List.mem_singleton, Entry.fired.injEq] at hm
          rcases hm with hm | hm
          · have := hn.2.1 e t k hm; omega
          · omega
        · rw [callsAt_append, hn.2.2 d' hd']; rfl
      exact ⟨_, h5.trans hn'⟩

theorem loopWith_adds {call : ES ω δ H → Event δ → Res (ES ω δ H)} {d fuel : Nat} (hc : ∀ s e s', call s e = .ok s' → ∃ new, Adds (d + 1) d s s' new)
    (h : s.loopWith b call d fuel = .ok s') : ∃ new, Adds d d s s' new := by
  unfold loopWith at h
  rw [bind_ok] at h
  obtain ⟨s1, h1, h2⟩ := h
  obtain ⟨n, hn⟩ := drain_adds hc _ _ _ h1
  obtain ⟨n', hn', _⟩ := sleep_adds d h2
  exact ⟨_, hn.trans hn'⟩

theorem trigger_adds {rounds : Nat} : ∀ (fuel depth : Nat) (s : ES ω δ H) (e : Event δ) (s' : ES ω δ H),
    trigger b beh rounds fuel depth s e = .ok s' → ∃ new, Adds (depth + 1) depth s s' new
  | 0, _, _, _, _, h => by cases h
  | fuel + 1, depth, s, e, s', h => by
    unfold trigger at h
    simp only [bind_ok] at h
    obtain ⟨_, _, v, _, _, _, h⟩ := h
    have ih : ∀ (s : ES ω δ H) e s', trigger b beh rounds fuel (depth + 1) s e = .ok s' → ∃ new, Adds (depth + 1 + 1) (depth + 1) s s' new :=
      fun s e s' => trigger_adds fuel (depth + 1) s e s'
    have hh : ∀ (n i : Nat) (s s' : ES ω δ H), visit (handle b beh (trigger b beh rounds fuel (depth + 1))
        (fun s => s.loopWith b (trigger b beh rounds fuel (depth + 1)) (depth + 1) rounds) depth e) e.id n i s = .ok s' →
        ∃ new, Adds (depth + 1) depth s s' new := by
      intro n
      induction n with
      | zero => intro i s s' h; cases h; exact ⟨[], Adds.refl _ _ s⟩
      | succ n ihn =>
        intro i s s' h
        obtain ⟨v, x, s1, hv, hx, h1, h2⟩ := visit_step h
        obtain ⟨_, n1, _, a1, _⟩ := handle_adds (fun s e s' h => by obtain ⟨n, hn⟩ := ih s e s' h; exact ⟨n, hn.weaken (by omega) (le_refl _)⟩)
          (fun s s' h => loopWith_adds ih h) h1
        obtain ⟨n2, a2⟩ := ihn _ _ _ h2
        exact ⟨_, a1.trans a2⟩
    exact hh _ _ _ _ h

theorem trigger_calls {rounds : Nat} : ∀ (fuel depth : Nat), Calls depth (trigger b beh rounds fuel depth : ES ω δ H → Event δ → Res (ES ω δ H))
  | 0, _ => fun s e s' h => by cases h
  | fuel + 1, depth => fun s e s' h => by
    refine ⟨(trigger_good (objs := []) (fuel + 1) depth s e s' h).1, fun hm => ?_⟩
    unfold trigger at h
    simp only [bind_ok] at h
    obtain ⟨_, _, v, hv, _, _, h⟩ := h
    have hv1 : s.map[e.id]? = some v := by
      unfold rd at hv
      cases hx : s.map[e.id]? with
      | none => rw [hx] at hv; cases hv
      | some w => rw [hx] at hv; rw [Except.ok.inj hv]
    obtain ⟨post, log, rfl, hl⟩ := hm.slot e.id v hv1
    have hsm := hm.small
    rw [Vec.size_mk' (by simp only [Vec.Fits, List.length_nil]; omega)] at h
    have ih : ∀ (s : ES ω δ H) e s', trigger b beh rounds fuel (depth + 1) s e = .ok s' → ∃ new, Adds (depth + 1 + 1) (depth + 1) s s' new :=
      fun s e s' => trigger_adds fuel (depth + 1) s e s'
    obtain ⟨new, h1, h2⟩ := visit_adds (e := e) (fun s x s' h => ⟨(handle_keeps (objs := []) (trigger_good fuel (depth + 1))
      (fun s s' h => loopWith_keeps (trigger_good fuel (depth + 1)) h) h).1,
      handle_adds (fun s e s' h => by obtain ⟨n, hn⟩ := ih s e s' h; exact ⟨n, hn.weaken (by omega) (le_refl _)⟩)
        (fun s s' h => loopWith_adds ih h) h⟩) _ _ s s' hm (List.prefix_refl _) (by simp [Vec.mk']) h
    exact ⟨new, h1, by simpa [Vec.mk'] using h2⟩

theorem drain_calls {call : ES ω δ H → Event δ → Res (ES ω δ H)} {d : Nat} (hc : Calls d call) :
    ∀ (fuel : Nat) (s s' : ES ω δ H), MapRep s → s.drainWith b call d fuel = .ok s' →
    ∃ new, s'.trace = new ++ s.trace ∧ (callsAt d new).reverse.map (fun c => (some c.1, c.2)) = owed s.cfg.handlerCap d s.trace new
  | 0, s, s', _, h => by cases h
  | fuel + 1, s, s', hm, h => by
    obtain ⟨due, pipe, h1, hor⟩ := drain_step h
    rcases hor with ⟨hd, rfl⟩ | ⟨hd, o, pipe', s2, h2, h3, h4⟩
    · exact ⟨[], rfl, rfl⟩
    · obtain ⟨hg, hn⟩ := hc _ _ _ h3
      obtain ⟨n, ⟨h5, h6, _⟩, h7⟩ := hn (hm.same rfl rfl (fun _ => rfl))
      obtain ⟨n', h8, h9⟩ := drain_calls hc fuel (s2.unhold o) s' ((hg.map (hm.same rfl rfl (fun _ => rfl))).same rfl rfl (fun _ => rfl)) h4
      have htr : (s2.unhold o).trace = (n ++ [.fired (pipe'.heap o) s.clock d]) ++ s.trace := by rw [List.append_assoc]; exact h5
      refine ⟨n' ++ (n ++ [.fired (pipe'.heap o) s.clock d]), ?_, ?_⟩
      · rw [h8, htr]; simp only [List.append_assoc]
      · have hcap : (s2.unhold o).cfg.handlerCap = s.cfg.handlerCap := by
          show s2.cfg.handlerCap = _
          rw [hg.cfg]; rfl
        rw [htr, hcap] at h9
        rw [callsAt_append, callsAt_append, owed_append, owed_append, owed_none _ d _ n (fun e t k hk => h6 e t k hk)]
        simp only [List.reverse_append, List.map_append, h9, h7]
        simp [callsAt, owed, attached, ES.hold]

/-! ### Handlers that only look ahead -/

/-- A delay that is not over yet when the clock reads `now`. -/
def Ahead (now d : Int) : Prop := near now - now < d ∧ 0 < d ∧ d ≤ 2 ^ 23

/-- The keys of the pending events that are due, in order. -/
def dueKeys (s : ES ω δ H) (q : List (Item ω)) : List (Key δ) :=
  (q.filter fun x => decide (x.deadline ≤ near s.clock)).map fun x => (s.pipe.heap x.obj).key

/-- The invariant for handlers that only look ahead. -/
structure Calm (objs : List ω) (s : ES ω δ H) (q : List (Item ω)) : Prop where
  inv : Inv objs s q
  tame : Tame s
  held : ∀ o, s.store.outside o ≠ 0 → Ahead s.clock (s.pipe.heap o).timeFromNow

/-- Nothing due was added, removed or delivered. -/
structure Quiet (s : ES ω δ H) (q : List (Item ω)) (s' : ES ω δ H) (q' : List (Item ω)) : Prop where
  clock : s'.clock = s.clock
  due : dueKeys s' q' = dueKeys s q
  fired : firedKeys s'.trace = firedKeys s.trace

theorem Quiet.refl (s : ES ω δ H) (q : List (Item ω)) : Quiet s q s q := ⟨rfl, rfl, rfl⟩

theorem Quiet.trans {s1 s2 s3 : ES ω δ H} {q1 q2 q3 : List (Item ω)} (h : Quiet s1 q1 s2 q2) (h' : Quiet s2 q2 s3 q3) :
    Quiet s1 q1 s3 q3 := ⟨h'.clock.trans h.clock, h'.due.trans h.due, h'.fired.trans h.fired⟩

theorem fetch_calm (h : Calm objs s q) {id : Nat} {delay : Int} {data : δ} {x : Option ω}
    (hf : s.fetch b id delay data = .ok (x, s')) : Calm objs s' q ∧ Quiet s q s' q ∧
      ∀ o, x = some o → o ∈ objs ∧ owners s' q o = 0 ∧ (s'.pipe.heap o).timeFromNow = delay := by
  have hF := fetch_grows hf
  obtain ⟨h1, h2⟩ := fetch_inv h.inv hf
  have hother : ∀ o, owners s' q o ≠ 0 → s'.pipe.heap o = s.pipe.heap o := by
    intro o ho
    rw [hF.heap]
    cases x with
    | none => rfl
    | some y =>
      refine Pipe.store_other _ _ ?_
      rintro rfl
      exact ho (h2 _ rfl).2
  refine ⟨⟨h1, ?_, ?_⟩, ⟨hF.clock, ?_, by rw [hF.trace]⟩, ?_⟩
  · exact ⟨by rw [hF.clock]; exact h.tame.1, by rw [hF.trace]; exact h.tame.2⟩
  · intro o ho
    rw [hother o (by simp only [owners]; omega), hF.clock]
    exact h.held o (by rw [← hF.store]; exact ho)
  · simp only [dueKeys, hF.clock]
    refine List.map_congr_left fun y hy => ?_
    have hm : y.obj ∈ q.map (·.obj) := List.mem_map_of_mem (List.mem_of_mem_filter hy)
    rw [hother y.obj (by simp only [owners, if_pos hm]; omega)]
  · rintro o rfl
    refine ⟨(h2 o rfl).1, (h2 o rfl).2, ?_⟩
    rw [hF.heap]; simp

theorem filter_insert {x : Item ω} {f : Item ω → Bool} (hx : f x = false) (q : List (Item ω)) :
    (Agenda.insert x q).filter f = q.filter f := by
  unfold Agenda.insert
  rw [List.filter_append, List.filter_cons_of_neg (by simp [hx]), ← List.filter_append, List.takeWhile_append_dropWhile]

theorem enqueue_calm (h : Calm objs s q) {o : ω} (ho : o ∈ objs) (hown : owners s q o = 0) (hd : Ahead s.clock (s.pipe.heap o).timeFromNow) :
    ∃ s' q', s.enqueue b (some o) = .ok s' ∧ Calm objs s' q' ∧ Quiet s q s' q' := by
  obtain ⟨hd1, hd2, hd3⟩ := hd
  obtain ⟨v, h1, h2⟩ := enqueue_spec (b := b) h.inv ho hown h.tame.1 (le_of_lt hd2) hd3 (.inr hd2)
  have hq : ∀ x ∈ q, x.obj ≠ o := by
    rintro x hx rfl
    have hm : x.obj ∈ q.map (·.obj) := List.mem_map_of_mem hx
    simp only [owners, if_pos hm] at hown; omega
  refine ⟨_, _, h1, ⟨h2, ⟨h.tame.1, ?_⟩, ?_⟩, ⟨rfl, ?_, rfl⟩⟩
  · intro e t he
    simp only [queued, List.mem_cons] at he
    rcases he with he | he
    · cases he; exact ⟨le_of_lt hd2, hd3⟩
    · exact h.tame.2 e t he
  · intro o' ho'
    have hne : o' ≠ o := by
      rintro rfl
      simp only [owners] at hown
      simp only [queued] at ho'; omega
    simp only [queued, hne, if_false]
    exact h.held o' ho'
  · have hc : (s.queued o v).clock = s.clock := rfl
    simp only [dueKeys, hc]
    rw [filter_insert (by simp; omega)]
    refine List.map_congr_left fun y hy => ?_
    simp only [queued, hq y (List.mem_of_mem_filter hy), if_false]

/-- What `trigger(const Event&)` does when handlers only look ahead. -/
def CalmCall (objs : List ω) (nested : Bool) (now : Int) (call : ES ω δ H → Event δ → Res (ES ω δ H)) : Prop :=
  nested = true → ∀ s q e s', s.clock = now → Calm objs s q → call s e = .ok s' → ∃ q', Calm objs s' q' ∧ Quiet s q s' q'

theorem Calm.hold (h : Calm objs s q) {o : ω} (ho : o ∈ objs) (hown : owners s q o = 0) : Calm objs (s.hold o) q :=
  ⟨h.inv.hold ho hown, h.tame, h.held⟩

theorem Calm.unhold (h : Calm objs s q) (o : ω) : Calm objs (s.unhold o) q := ⟨h.inv.unhold o, h.tame, h.held⟩

theorem give_calm (h : Calm objs s q) {o : ω} (hg : s.give o = .ok s') :
    Calm objs s' q ∧ Quiet s q s' q ∧ o ∈ objs ∧ owners s' q o = 0 ∧ Ahead s'.clock (s'.pipe.heap o).timeFromNow := by
  obtain ⟨_, h1⟩ := give_keeps (objs := objs) hg
  obtain ⟨h2, h3, h4⟩ := h1 q h.inv
  unfold give at hg
  split at hg
  · cases hg
  · next hne =>
    cases hg
    refine ⟨⟨h2, h.tame, fun o' ho' => h.held o' ?_⟩, ⟨rfl, rfl, rfl⟩, h3, h4, h.held o hne⟩
    simp only [Pool.release] at ho'
    split at ho' <;> omega

theorem bind_nofuel {α β : Type} {x : Res α} {f : α → Res β} (hx : x ≠ .error .fuel) (hf : ∀ a, x = .ok a → f a ≠ .error .fuel) :
    (x >>= f) ≠ .error .fuel := by
  cases x with
  | error e => rw [res_bind_error]; exact fun h => hx (by rw [Except.error.inj h])
  | ok a => rw [res_bind_ok]; exact hf a rfl

theorem spnAssert_nofuel (c : Bool) : spnAssert b c ≠ .error .fuel := by
  cases b <;> cases c <;> simp [spnAssert]

theorem rd_nofuel {α : Type} (m : List α) (i : Nat) : rd m i ≠ .error .fuel := by
  unfold rd; split <;> simp

theorem pushBack_nofuel {α : Type} {e : Elem α} (v : Vec α) (x : α) : v.pushBack b e x ≠ .error .fuel := by
  unfold Vec.pushBack
  refine bind_nofuel ?_ fun w _ => bind_nofuel (spnAssert_nofuel _) fun _ _ => ?_
  · unfold Vec.compact Vec.rearrange
    split
    · refine bind_nofuel (spnAssert_nofuel _) fun _ _ => bind_nofuel ?_ fun _ _ => bind_nofuel ?_ fun _ _ =>
        bind_nofuel (spnAssert_nofuel _) fun _ _ => bind_nofuel ?_ fun _ _ => by simp
      · unfold memmove; repeat (split <;> try simp)
      · unfold memzero; repeat (split <;> try simp)
      · unfold memzero; repeat (split <;> try simp)
    · simp
  · split
    · refine bind_nofuel ?_ fun _ _ => by simp
      unfold Vec.assign
      exact bind_nofuel (rd_nofuel _ _) fun _ _ => by simp
    · simp

theorem attach_nofuel (id : Nat) (x : Option H) : s.attach b id x ≠ .error .fuel := by
  unfold attach
  exact bind_nofuel (spnAssert_nofuel _) fun _ _ => bind_nofuel (spnAssert_nofuel _) fun _ _ => bind_nofuel (rd_nofuel _ _) fun _ _ =>
    bind_nofuel (spnAssert_nofuel _) fun _ _ => bind_nofuel (pushBack_nofuel _ _) fun _ _ => by simp

theorem attach_calm (h : Calm objs s q) {id : Nat} {x : Option H} (ha : s.attach b id x = .ok s') : Calm objs s' q ∧ Quiet s q s' q := by
  obtain ⟨_, h1, h2, h3, _, h5, h6⟩ := attach_keeps (objs := objs) ha
  refine ⟨⟨h6 q h.inv, ⟨by rw [h3]; exact h.tame.1, fun e t he => ?_⟩, fun o ho => ?_⟩, ⟨h3, by simp only [dueKeys, h2, h3], by rw [h5]; rfl⟩⟩
  · rw [h5] at he
    simp only [List.mem_cons, reduceCtorEq, false_or] at he
    exact h.tame.2 e t he
  · rw [h1] at ho
    rw [h2, h3]; exact h.held o ho

theorem exec_calm {call : ES ω δ H → Event δ → Res (ES ω δ H)} {poll : ES ω δ H → Res (ES ω δ H)} {nested : Bool} {now : Int}
    (hc : CalmCall objs nested now call) (p : Prog ω δ H) :
    ∀ (s : ES ω δ H) (q : List (Item ω)), s.clock = now → Calm objs s q → p.Forward nested (near now - now) (2 ^ 23) →
      (∀ s', s.exec b call poll p = .ok s' → ∃ q', Calm objs s' q' ∧ Quiet s q s' q') ∧
      (nested = false → s.exec b call poll p ≠ .error .fuel) := by
  induction p with
  | loop k ih => intro s q _ _ hp; exact hp.elim
  | attach id x k ih =>
    intro s q hn h hp
    refine ⟨fun s' hs' => ?_, fun hne => ?_⟩
    · rw [exec, bind_ok] at hs'
      obtain ⟨s1, h1, h2⟩ := hs'
      obtain ⟨h3, h4⟩ := attach_calm h h1
      obtain ⟨q', j1, j2⟩ := (ih s1 q (h4.clock.trans hn) h3 hp).1 s' h2
      exact ⟨q', j1, h4.trans j2⟩
    · rw [exec]
      refine bind_nofuel (attach_nofuel _ _) fun s1 h1 => ?_
      obtain ⟨h3, h4⟩ := attach_calm h h1
      exact (ih s1 q (h4.clock.trans hn) h3 hp).2 hne
  | done => intro s q _ h _; exact ⟨fun s' h' => by cases h'; exact ⟨q, h, Quiet.refl s q⟩, fun _ => by simp [exec]⟩
  | now k ih => intro s q hn h hp; exact ih s.clock s q hn h (hp s.clock)
  | wait ms k ih => intro s q _ _ hp; exact hp.elim
  | schedule id delay data k ih =>
    intro s q hn h hp
    obtain ⟨hd, hk⟩ := hp
    subst hn
    rw [exec, schedule]
    rcases fetch_spec (b := b) h.inv id delay data with ⟨o, s1, h1, _, _, _⟩ | ⟨_, h1⟩
    · rw [h1, res_bind_ok]
      obtain ⟨h2, h3, h4⟩ := fetch_calm h h1
      obtain ⟨h5, h6, h7⟩ := h4 o rfl
      obtain ⟨s2, q2, h8, h9, h10⟩ := enqueue_calm (b := b) h2 h5 h6 (by rw [h7, h3.clock]; exact hd)
      simp only [h8, res_bind_ok]
      obtain ⟨i1, i2⟩ := ih s2 q2 (h10.clock.trans h3.clock) h9 hk
      refine ⟨fun s' hs' => ?_, i2⟩
      obtain ⟨q', j1, j2⟩ := i1 s' hs'
      exact ⟨q', j1, h3.trans (h10.trans j2)⟩
    · cases b with
      | debug => simp only at h1; rw [h1]; simp
      | release =>
        obtain ⟨s1, h1, _⟩ := h1
        have : s1.enqueue .release none = .error .ub := by
          simp [enqueue, Pipe.push, spnAssert_release, deref]
        rw [h1, res_bind_ok]; simp [this]
  | trigger id data k ih =>
    intro s q hn h hp
    obtain ⟨hnest, hk⟩ := hp
    subst hn
    refine ⟨fun s' hs' => ?_, fun hf => by rw [hf] at hnest; cases hnest⟩
    rw [exec, bind_ok] at hs'
    obtain ⟨s1, h1, h2⟩ := hs'
    unfold triggerId at h1
    rw [bind_ok] at h1
    obtain ⟨⟨x, s0⟩, h3, h1⟩ := h1
    simp only [bind_ok] at h1
    obtain ⟨_, _, o, h4, s2, h5, h6⟩ := h1
    obtain rfl := deref_ok h4
    rw [res_pure] at h6
    obtain rfl := Except.ok.inj h6
    obtain ⟨h7, h8, h9⟩ := fetch_calm h h3
    obtain ⟨h10, h11, _⟩ := h9 o rfl
    obtain ⟨q2, h12, h13⟩ := hc hnest (s0.hold o) q _ _ h8.clock (h7.hold h10 h11) h5
    have h14 : Quiet s q (s2.unhold o) q2 := h8.trans ⟨h13.clock, h13.due, h13.fired⟩
    obtain ⟨q', j1, j2⟩ := (ih (s2.unhold o) q2 h14.clock (h12.unhold o) hk).1 s' h2
    exact ⟨q', j1, h14.trans j2⟩
  | event id delay data k ih =>
    intro s q hn h hp
    obtain ⟨hd, hk⟩ := hp
    subst hn
    rw [exec, event]
    rcases fetch_spec (b := b) h.inv id delay data with ⟨o, s1, h1, _, _, _⟩ | ⟨_, h1⟩
    · rw [h1]
      simp only [res_bind_ok, res_pure]
      obtain ⟨h2, h3, h4⟩ := fetch_calm h h1
      obtain ⟨h5, h6, h7⟩ := h4 o rfl
      have hcalm : Calm objs { s1 with store := s1.store.gain (some o) } q := by
        refine ⟨?_, h2.tame, fun o' ho' => ?_⟩
        · refine h2.inv.change (h2.inv.store.withOutside _) rfl rfl (fun _ _ => rfl) ?_ rfl rfl rfl
          intro o'
          have h7 := h2.inv.single o'
          simp only [owners, Pool.gain] at h6 h7 ⊢
          by_cases he : o' = o
          · subst he; simp only [if_true, if_pos h5]; omega
          · simpa only [he, if_false] using h7
        · simp only [Pool.gain] at ho'
          by_cases he : o' = o
          · subst he; simp only [h7]; rw [h3.clock]; exact hd
          · rw [if_neg he] at ho'; exact h2.held o' ho'
      obtain ⟨i1, i2⟩ := ih (some o) { s1 with store := s1.store.gain (some o) } q h3.clock hcalm (hk _)
      refine ⟨fun s' hs' => ?_, i2⟩
      obtain ⟨q', j1, j2⟩ := i1 s' hs'
      exact ⟨q', j1, h3.trans ⟨j2.clock, j2.due, j2.fired⟩⟩
    · cases b with
      | debug => simp only at h1; rw [h1]; simp
      | release =>
        obtain ⟨s1, h1, _⟩ := h1
        obtain ⟨h2, h3, _⟩ := fetch_calm h h1
        rw [h1]
        simp only [res_bind_ok, res_pure]
        obtain ⟨i1, i2⟩ := ih none _ q h3.clock (show Calm objs { s1 with store := s1.store.gain none } q from h2) (hk _)
        refine ⟨fun s' hs' => ?_, i2⟩
        obtain ⟨q', j1, j2⟩ := i1 s' hs'
        exact ⟨q', j1, h3.trans ⟨j2.clock, j2.due, j2.fired⟩⟩
  | submit o k ih =>
    intro s q hn h hp
    rw [exec]
    cases hg : s.give o with
    | error e =>
      unfold give at hg
      split at hg
      · cases hg; simp
      · cases hg
    | ok s1 =>
      obtain ⟨h1, h2, h3, h4, h5⟩ := give_calm h hg
      obtain ⟨s2, q2, h8, h9, h10⟩ := enqueue_calm (b := b) h1 h3 h4 h5
      simp only [res_bind_ok, h8]
      obtain ⟨i1, i2⟩ := ih s2 q2 ((h10.clock.trans h2.clock).trans hn) h9 hp
      refine ⟨fun s' hs' => ?_, i2⟩
      obtain ⟨q', j1, j2⟩ := i1 s' hs'
      exact ⟨q', j1, h2.trans (h10.trans j2)⟩
  | drop o k ih =>
    intro s q hn h hp
    rw [exec]
    cases hg : s.give o with
    | error e =>
      unfold give at hg
      split at hg
      · cases hg; simp
      · cases hg
    | ok s1 =>
      obtain ⟨h1, h2, _⟩ := give_calm h hg
      simp only [res_bind_ok]
      obtain ⟨i1, i2⟩ := ih s1 q (h2.clock.trans hn) h1 hp
      refine ⟨fun s' hs' => ?_, i2⟩
      obtain ⟨q', j1, j2⟩ := i1 s' hs'
      exact ⟨q', j1, h2.trans j2⟩

/-- Handlers that only look ahead while the clock reads `now`. -/
def LooksAhead (beh : Behaviour ω δ H) (nested : Bool) (now : Int) : Prop :=
  ∀ h tr e, (beh h tr e).Forward nested (near now - now) (2 ^ 23)

theorem Calm.called (h : Calm objs s q) (x : H) (e : Event δ) (d : Nat) (t : Int) :
    Calm objs { s with trace := .called x e d t :: s.trace } q :=
  ⟨h.inv.called x e d t, ⟨h.tame.1, fun e' t' hm => h.tame.2 e' t' (by simpa using hm)⟩, h.held⟩

theorem visit_calm {nested : Bool} {now : Int} {call : ES ω δ H → Event δ → Res (ES ω δ H)} {poll : ES ω δ H → Res (ES ω δ H)}
    (hc : CalmCall objs nested now call) (hb : LooksAhead beh nested now) {depth : Nat} {e : Event δ} {id : Nat} :
    ∀ (n i : Nat) (s : ES ω δ H) (q : List (Item ω)), s.clock = now → Calm objs s q →
      (∀ s', visit (handle b beh call poll depth e) id n i s = .ok s' → ∃ q', Calm objs s' q' ∧ Quiet s q s' q') ∧
      (nested = false → visit (handle b beh call poll depth e) id n i s ≠ .error .fuel)
  | 0, i, s, q, _, h => ⟨fun s' h' => by cases h'; exact ⟨q, h, Quiet.refl s q⟩, fun _ => by simp [visit]⟩
  | n + 1, i, s, q, hn, h => by
    have key : ∀ x, (∀ s', handle b beh call poll depth e s x = .ok s' → ∃ q', Calm objs s' q' ∧ Quiet s q s' q') ∧
        (nested = false → handle b beh call poll depth e s x ≠ .error .fuel) := by
      intro x
      unfold handle
      cases x with
      | none => exact ⟨fun s' h' => by simp [deref] at h', fun _ => by simp [deref]⟩
      | some y =>
        simp only [deref, res_bind_ok]
        obtain ⟨i1, i2⟩ := exec_calm (b := b) (poll := poll) hc (beh y s.trace e) { s with trace := .called y e depth s.clock :: s.trace } q hn
          (h.called y e depth s.clock) (hb y s.trace e)
        refine ⟨fun s' hs' => ?_, i2⟩
        obtain ⟨q', j1, j2⟩ := i1 s' hs'
        exact ⟨q', j1, ⟨j2.clock, j2.due, j2.fired⟩⟩
    refine ⟨fun s' hs' => ?_, fun hf => ?_⟩
    · obtain ⟨v, x, s1, _, _, h1, h2⟩ := visit_step hs'
      obtain ⟨q1, h3, h4⟩ := (key x).1 s1 h1
      obtain ⟨q', j1, j2⟩ := (visit_calm hc hb n (i + 1) s1 q1 (h4.clock.trans hn) h3).1 s' h2
      exact ⟨q', j1, h4.trans j2⟩
    · unfold visit
      refine bind_nofuel (rd_nofuel _ _) fun v _ => bind_nofuel (rd_nofuel _ _) fun x _ => bind_nofuel ((key x).2 hf) fun s1 h1 => ?_
      obtain ⟨q1, h3, h4⟩ := (key x).1 s1 h1
      exact (visit_calm hc hb n (i + 1) s1 q1 (h4.clock.trans hn) h3).2 hf

theorem trigger_calm {nested : Bool} {now : Int} (hb : LooksAhead beh nested now) {rounds : Nat} :
    ∀ (fuel depth : Nat) (s : ES ω δ H) (q : List (Item ω)) (e : Event δ) (s' : ES ω δ H), s.clock = now → Calm objs s q →
      trigger b beh rounds fuel depth s e = .ok s' → ∃ q', Calm objs s' q' ∧ Quiet s q s' q'
  | 0, _, s, q, e, s', _, _, h => by cases h
  | fuel + 1, depth, s, q, e, s', hn, hcalm, h => by
    unfold trigger at h
    simp only [bind_ok] at h
    obtain ⟨_, _, v, _, _, _, h⟩ := h
    exact (visit_calm (fun _ s q e s' => trigger_calm hb fuel (depth + 1) s q e s') hb _ _ s q hn hcalm).1 s' h

theorem trigger_fuel {now : Int} (hb : LooksAhead beh false now) {rounds : Nat} (fuel depth : Nat) (e : Event δ)
    (hn : s.clock = now) (h : Calm objs s q) : trigger b beh rounds (fuel + 1) depth s e ≠ .error .fuel := by
  unfold trigger
  exact bind_nofuel (spnAssert_nofuel _) fun _ _ => bind_nofuel (rd_nofuel _ _) fun v _ => bind_nofuel (spnAssert_nofuel _) fun _ _ =>
    (visit_calm (objs := objs) (fun hf => by cases hf) hb _ _ s q hn h).2 rfl

/-- `loop()` fires the due events and no others, and then stops. -/
theorem drain_calm {nested : Bool} {now : Int} {rounds nest : Nat} (hb : LooksAhead beh nested now) :
    ∀ (k : Nat) (s : ES ω δ H) (q : List (Item ω)), s.clock = now → Calm objs s q → (dueKeys s q).length = k →
      (∀ fuel, k < fuel → s.drain b beh rounds nest fuel = s.drain b beh rounds nest (k + 1)) ∧
      (∀ s', s.drain b beh rounds nest (k + 1) = .ok s' → firedKeys s'.trace = (dueKeys s q).reverse ++ firedKeys s.trace) ∧
      (nested = false → 0 < nest → s.drain b beh rounds nest (k + 1) ≠ .error .fuel) := by
  intro k
  induction k with
  | zero =>
    intro s q hn h hk
    obtain ⟨heap', e1, e2, e3⟩ := Pipe.containsExpired_spec (b := b) h.inv.pipe h.inv.clock h.tame.1
    have hd : dueKeys s q = [] := List.length_eq_zero_iff.mp hk
    have hhead : q.head?.any (fun x => decide (x.deadline ≤ near s.clock)) = false := by
      cases q with
      | nil => rfl
      | cons x q =>
        simp only [dueKeys, List.map_eq_nil_iff, List.filter_eq_nil_iff] at hd
        have := hd x (by simp)
        simpa using this
    rw [hhead] at e1
    have hdr : ∀ fuel, s.drain b beh rounds nest (fuel + 1) = .ok { s with pipe := { s.pipe with heap := heap' } } := by
      intro fuel
      rw [drain, drainWith, e1]; rfl
    refine ⟨fun fuel hf => ?_, fun s' hs' => ?_, fun _ _ => ?_⟩
    · obtain ⟨f, rfl⟩ : ∃ f, fuel = f + 1 := ⟨fuel - 1, by omega⟩
      rw [hdr, hdr]
    · rw [hdr] at hs'
      rw [← Except.ok.inj hs', hd]; rfl
    · rw [hdr]; simp
  | succ k ih =>
    intro s q hn h hk
    obtain ⟨heap', e1, e2, e3⟩ := Pipe.containsExpired_spec (b := b) h.inv.pipe h.inv.clock h.tame.1
    cases q with
    | nil => simp [dueKeys] at hk
    | cons x q =>
      have hx : x.deadline ≤ near s.clock := by
        by_contra hc
        have : dueKeys s (x :: q) = [] := by
          simp only [dueKeys, List.map_eq_nil_iff, List.filter_eq_nil_iff, decide_eq_true_eq, not_le]
          intro y hy
          rcases List.mem_cons.mp hy with rfl | hy
          · omega
          · have := (List.pairwise_cons.mp h.inv.pipe.sorted).1 y hy; omega
        rw [this] at hk; simp at hk
      simp only [List.head?_cons, Option.any_some, hx, decide_true] at e1
      obtain ⟨p', e5, e6, e7⟩ := Pipe.expire_spec (b := b) e3 h.inv.clock h.tame.1 hx
      set s1 : ES ω δ H := { s.hold x.obj with pipe := p', trace := .fired (p'.heap x.obj) s.clock 0 :: s.trace } with hs1
      have hsame := e2.trans e6
      have hdr : ∀ fuel, s.drain b beh rounds nest (fuel + 1) = (trigger b beh rounds nest 0 s1 (p'.heap x.obj)) >>= fun s2 =>
          (s2.unhold x.obj).drain b beh rounds nest fuel := by
        intro fuel
        rw [drain, drainWith, e1]
        simp only [res_bind_ok, if_true, e5, Option.isSome_some, spnAssert_true, deref]
        rfl
      have hcalm : Calm objs s1 q := by
        refine ⟨h.inv.fire hsame e7 hx 0, ⟨h.tame.1, fun e t he => h.tame.2 e t (by simpa [hs1] using he)⟩, fun o ho => ?_⟩
        obtain ⟨f, hf⟩ := hsame o
        have := h.held o ho
        simp only [hs1]
        rw [hf]; exact this
      have hdue : dueKeys s (x :: q) = (s.pipe.heap x.obj).key :: dueKeys s1 q := by
        simp only [dueKeys, List.filter_cons, hx, decide_true, if_true, List.map_cons]
        congr 1
        exact List.map_congr_left (fun y _ => (key_same hsame y.obj).symm)
      have hk1 : (dueKeys s1 q).length = k := by rw [hdue] at hk; simpa using hk
      have hn1 : s1.clock = now := hn
      refine ⟨fun fuel hf => ?_, fun s' hs' => ?_, fun hnest h0 => ?_⟩
      · obtain ⟨f, rfl⟩ : ∃ f, fuel = f + 1 := ⟨fuel - 1, by omega⟩
        rw [hdr, hdr]
        cases ht : trigger b beh rounds nest 0 s1 (p'.heap x.obj) with
        | error e => rfl
        | ok s2 =>
          simp only [res_bind_ok]
          obtain ⟨q2, h3, h4⟩ := trigger_calm hb nest 0 s1 q _ s2 hn1 hcalm ht
          exact (ih (s2.unhold x.obj) q2 (h4.clock.trans hn1) (h3.unhold _) (by rw [← hk1, ← h4.due]; rfl)).1 f (by omega)
      · rw [hdr, bind_ok] at hs'
        obtain ⟨s2, ht, hs'⟩ := hs'
        obtain ⟨q2, h3, h4⟩ := trigger_calm hb nest 0 s1 q _ s2 hn1 hcalm ht
        have := (ih (s2.unhold x.obj) q2 (h4.clock.trans hn1) (h3.unhold _) (by rw [← hk1, ← h4.due]; rfl)).2.1 s' hs'
        rw [this]
        have hd2 : dueKeys (s2.unhold x.obj) q2 = dueKeys s1 q := h4.due
        have hf2 : firedKeys (s2.unhold x.obj).trace = firedKeys s1.trace := h4.fired
        rw [hd2, hf2, hdue]
        simp only [hs1, firedKeys, key_same hsame x.obj, List.reverse_cons, List.append_assoc, List.singleton_append]
      · rw [hdr]
        obtain ⟨n, rfl⟩ : ∃ n, nest = n + 1 := ⟨nest - 1, by omega⟩
        cases ht : trigger b beh rounds (n + 1) 0 s1 (p'.heap x.obj) with
        | error e =>
          rw [res_bind_error]
          intro he
          rw [Except.error.inj he] at ht
          subst hnest
          exact trigger_fuel (s := s1) (objs := objs) hb n 0 _ hn1 hcalm ht
        | ok s2 =>
          rw [res_bind_ok]
          obtain ⟨q2, h3, h4⟩ := trigger_calm hb (n + 1) 0 s1 q _ s2 hn1 hcalm ht
          exact (ih (s2.unhold x.obj) q2 (h4.clock.trans hn1) (h3.unhold _) (by rw [← hk1, ← h4.due]; rfl)).2.2 hnest h0

end ES
end Spine
