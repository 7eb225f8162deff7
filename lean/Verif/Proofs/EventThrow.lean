import Verif.Model.EventThrow
import Verif.Proofs.EventSteps
/-!
# Handlers that throw
-/

namespace Spine

/-- A program that does not throw, as one that could: what leaves a call of `trigger` or `loop` is passed on. -/
def Prog.lift {ω δ H : Type} : Prog ω δ H → ThrowProg ω δ H
  | .done => .done
  | .now k => .now fun t => (k t).lift
  | .wait ms k => .wait ms k.lift
  | .schedule id delay data k => .schedule id delay data k.lift
  | .trigger id data k => .trigger id data fun t => if t then .throw else k.lift
  | .event id delay data k => .event id delay data fun x => (k x).lift
  | .submit o k => .submit o k.lift
  | .drop o k => .drop o k.lift
  | .attach id h k => .attach id h k.lift
  | .loop k => .loop fun t => if t then .throw else k.lift

namespace ES

variable {ω δ H : Type} [DecidableEq ω] {b : Build} {beh : ThrowBehaviour ω δ H} {objs : List ω} {s s' : ES ω δ H}

abbrev CallT (ω δ H : Type) := ES ω δ H → Event δ → Res (Bool × ES ω δ H)
abbrev PollT (ω δ H : Type) := ES ω δ H → Res (Bool × ES ω δ H)

theorem triggerIdT_does {call : CallT ω δ H} {d id : Nat} {data : δ} {t : Bool} (hc : ∀ s e t s', call s e = .ok (t, s') → Does b d d s s')
    (h : s.triggerIdT b call id data = .ok (t, s')) : Does b d d s s' := by
  unfold triggerIdT at h
  rw [bind_ok] at h
  obtain ⟨⟨x, s0⟩, h3, h1⟩ := h
  simp only [bind_ok] at h1
  obtain ⟨_, _, o, h4, ⟨t2, s2⟩, h5, h6⟩ := h1
  simp only [res_pure] at h6
  cases h6
  obtain rfl := deref_ok h4
  exact .held h3 (hc _ _ _ _ h5)

theorem execT_does {call : CallT ω δ H} {poll : PollT ω δ H} {d : Nat} (hc : ∀ s e t s', call s e = .ok (t, s') → Does b d d s s')
    (hl : ∀ s t s', poll s = .ok (t, s') → Does b d d s s') (p : ThrowProg ω δ H) :
    ∀ (s : ES ω δ H) (t : Bool) (s' : ES ω δ H), s.execT b call poll p = .ok (t, s') → Does b d d s s' := by
  induction p with
  | done => intro s t s' h; cases h; exact .refl _
  | throw => intro s t s' h; cases h; exact .refl _
  | now k ih => intro s t s' h; exact ih s.clock s t s' h
  | wait ms k ih => intro s t s' h; exact .trans (.wait s ms) (ih _ _ _ h)
  | schedule id delay data k ih =>
    intro s t s' h
    rw [execT, bind_ok] at h
    obtain ⟨s1, h1, h2⟩ := h
    exact .trans (.schedule h1) (ih _ _ _ h2)
  | trigger id data k ih =>
    intro s t s' h
    rw [execT, bind_ok] at h
    obtain ⟨⟨t1, s1⟩, h1, h2⟩ := h
    exact .trans (triggerIdT_does hc h1) (ih _ _ _ _ h2)
  | event id delay data k ih =>
    intro s t s' h
    rw [execT, bind_ok] at h
    obtain ⟨⟨x, s1⟩, h1, h2⟩ := h
    exact .trans (.event h1) (ih _ _ _ _ h2)
  | submit o k ih =>
    intro s t s' h
    rw [execT, bind_ok] at h
    obtain ⟨s1, h1, h2⟩ := h
    rw [bind_ok] at h2
    obtain ⟨s2, h3, h4⟩ := h2
    exact .trans (.submit h1 h3) (ih _ _ _ h4)
  | drop o k ih =>
    intro s t s' h
    rw [execT, bind_ok] at h
    obtain ⟨s1, h1, h2⟩ := h
    exact .trans (.drop h1) (ih _ _ _ h2)
  | attach id x k ih =>
    intro s t s' h
    rw [execT, bind_ok] at h
    obtain ⟨s1, h1, h2⟩ := h
    exact .trans (.attach h1) (ih _ _ _ h2)
  | loop k ih =>
    intro s t s' h
    rw [execT, bind_ok] at h
    obtain ⟨⟨t1, s1⟩, h1, h2⟩ := h
    exact .trans (hl _ _ _ h1) (ih _ _ _ _ h2)

theorem handleT_does {call : CallT ω δ H} {poll : PollT ω δ H} {d : Nat} (hc : ∀ s e t s', call s e = .ok (t, s') → Does b (d + 1) (d + 1) s s')
    (hl : ∀ s t s', poll s = .ok (t, s') → Does b (d + 1) (d + 1) s s') {e : Event δ} {x : Option H} {t : Bool}
    (h : handleT b beh call poll d e s x = .ok (t, s')) :
    ∃ y, x = some y ∧ execT b call poll { s with trace := .called y e d s.clock :: s.trace } (beh y s.trace e) = .ok (t, s') ∧
      Does b (d + 1) (d + 1) { s with trace := .called y e d s.clock :: s.trace } s' := by
  unfold handleT at h
  rw [bind_ok] at h
  obtain ⟨y, hy, h⟩ := h
  exact ⟨y, deref_ok hy, h, execT_does hc hl _ _ _ _ h⟩

theorem visitT_step {f : ES ω δ H → Option H → Res (Bool × ES ω δ H)} {id n i : Nat} {t : Bool} (h : visitT f id (n + 1) i s = .ok (t, s')) :
    ∃ v x t1 s1, s.map[id]? = some v ∧ v.store[i]? = some x ∧ f s x = .ok (t1, s1) ∧
      ((t1 = true ∧ t = true ∧ s' = s1) ∨ (t1 = false ∧ visitT f id n (i + 1) s1 = .ok (t, s'))) := by
  unfold visitT at h
  simp only [bind_ok] at h
  obtain ⟨v, hv, x, hx, ⟨t1, s1⟩, h1, h2⟩ := h
  refine ⟨v, x, t1, s1, ?_, ?_, h1, ?_⟩
  · unfold rd at hv
    cases hy : s.map[id]? with
    | none => rw [hy] at hv; cases hv
    | some w => rw [hy] at hv; rw [Except.ok.inj hv]
  · unfold rd at hx
    cases hy : v.store[i]? with
    | none => rw [hy] at hx; cases hx
    | some w => rw [hy] at hx; rw [Except.ok.inj hx]
  · cases t1 with
    | true => left; simp only [if_true, res_pure] at h2; cases h2; exact ⟨rfl, rfl, rfl⟩
    | false => right; exact ⟨rfl, h2⟩

theorem visitT_does {f : ES ω δ H → Option H → Res (Bool × ES ω δ H)} {m d id : Nat} (hf : ∀ s x t s', f s x = .ok (t, s') → Does b m d s s') :
    ∀ (n i : Nat) (s : ES ω δ H) (t : Bool) (s' : ES ω δ H), visitT f id n i s = .ok (t, s') → Does b m d s s'
  | 0, i, s, t, s', h => by cases h; exact .refl _
  | n + 1, i, s, t, s', h => by
    obtain ⟨_, _, t1, s1, _, _, h1, h2 | h2⟩ := visitT_step h
    · rw [h2.2.2]; exact hf _ _ _ _ h1
    · exact .trans (hf _ _ _ _ h1) (visitT_does hf n _ _ _ _ h2.2)

theorem drainT_step {call : CallT ω δ H} {depth fuel : Nat} {t : Bool} (h : s.drainT b call depth (fuel + 1) = .ok (t, s')) :
    ∃ due pipe, s.pipe.containsExpired b s.clock = .ok (due, pipe) ∧
      ((due = false ∧ t = false ∧ s' = { s with pipe }) ∨
       (due = true ∧ ∃ o pipe' t2 s2, pipe.expire b s.clock = .ok (some o, pipe') ∧
          call { s.hold o with pipe := pipe', trace := .fired (pipe'.heap o) s.clock depth :: s.trace } (pipe'.heap o) = .ok (t2, s2) ∧
          ((t2 = true ∧ t = true ∧ s' = s2.unhold o) ∨ (t2 = false ∧ (s2.unhold o).drainT b call depth fuel = .ok (t, s'))))) := by
  unfold drainT at h
  rw [bind_ok] at h
  obtain ⟨⟨due, pipe⟩, h1, h⟩ := h
  refine ⟨due, pipe, h1, ?_⟩
  cases due with
  | false => left; simp only [Bool.false_eq_true, if_false, res_pure] at h; cases h; exact ⟨rfl, rfl, rfl⟩
  | true =>
    right
    simp only [if_true] at h
    rw [bind_ok] at h
    obtain ⟨⟨x, pipe'⟩, h2, h⟩ := h
    simp only [bind_ok] at h
    obtain ⟨_, _, o, h3, ⟨t2, s2⟩, h4, h5⟩ := h
    obtain rfl := deref_ok h3
    refine ⟨rfl, o, pipe', t2, s2, h2, h4, ?_⟩
    cases t2 with
    | true => left; simp only [if_true, res_pure] at h5; cases h5; exact ⟨rfl, rfl, rfl⟩
    | false => right; exact ⟨rfl, h5⟩

theorem drainT_does {call : CallT ω δ H} {d : Nat} (hc : ∀ s e t s', call s e = .ok (t, s') → Does b d d s s') :
    ∀ (fuel : Nat) (s : ES ω δ H) (t : Bool) (s' : ES ω δ H), s.drainT b call d fuel = .ok (t, s') → Does b d d s s'
  | 0, s, t, s', h => by cases h
  | fuel + 1, s, t, s', h => by
    obtain ⟨due, pipe, h1, ⟨_, _, rfl⟩ | ⟨rfl, o, pipe', t2, s2, h2, h3, h4⟩⟩ := drainT_step h
    · exact .polled h1
    · have h5 : Does b d d s (s2.unhold o) := .fired h1 h2 (le_refl d) (hc _ _ _ _ h3)
      rcases h4 with ⟨_, _, rfl⟩ | ⟨_, h4⟩
      · exact h5
      · exact .trans h5 (drainT_does hc fuel _ _ _ h4)

theorem loopT_does {call : CallT ω δ H} {d fuel : Nat} {t : Bool} (hc : ∀ s e t s', call s e = .ok (t, s') → Does b d d s s')
    (h : s.loopT b call d fuel = .ok (t, s')) : Does b d d s s' := by
  unfold loopT at h
  rw [bind_ok] at h
  obtain ⟨⟨t1, s1⟩, h1, h⟩ := h
  cases t1 with
  | true => simp only [if_true, res_pure] at h; cases h; exact drainT_does hc _ _ _ _ h1
  | false =>
    simp only [Bool.false_eq_true, if_false, bind_ok, res_pure] at h
    obtain ⟨s2, h2, h3⟩ := h
    cases h3
    exact .trans (drainT_does hc _ _ _ _ h1) (.slept h2)

/-- What `trigger` delivers is delivered by calls of `loop()` in handlers. -/
theorem triggerT_nested {rounds : Nat} : ∀ (fuel d : Nat) (s : ES ω δ H) (e : Event δ) (t : Bool) (s' : ES ω δ H),
    triggerT b beh rounds fuel d s e = .ok (t, s') → Does b (d + 1) d s s'
  | 0, _, _, _, _, _, h => by cases h
  | fuel + 1, d, s, e, t, s', h => by
    unfold triggerT at h
    simp only [bind_ok] at h
    obtain ⟨_, _, v, _, _, _, h⟩ := h
    have ih : ∀ (s : ES ω δ H) e t s', triggerT b beh rounds fuel (d + 1) s e = .ok (t, s') → Does b (d + 1) (d + 1) s s' :=
      fun s e t s' h => (triggerT_nested fuel (d + 1) s e t s' h).weaken (Nat.le_succ _) (le_refl _)
    refine visitT_does (fun s x t s' h => ?_) _ _ _ _ _ h
    obtain ⟨y, rfl, _, h2⟩ := handleT_does ih (fun s t s' h => loopT_does ih h) h
    exact .trans (.called s y e (le_refl d)) (h2.weaken (le_refl _) (by omega))

theorem triggerT_does {rounds : Nat} (fuel d : Nat) (s : ES ω δ H) (e : Event δ) (t : Bool) (s' : ES ω δ H)
    (h : triggerT b beh rounds fuel d s e = .ok (t, s')) : Does b d d s s' :=
  (triggerT_nested fuel d s e t s' h).weaken (Nat.le_succ d) (le_refl d)

theorem runT_does {nest fuel : Nat} {p : ThrowProg ω δ H} {t : Bool} (h : s.runT b beh nest fuel p = .ok (t, s')) : Does b 0 0 s s' :=
  execT_does (triggerT_does nest 0) (fun _ _ _ h => loopT_does (triggerT_does nest 0) h) p s t s' h

/-- Who is called by the range-based `for`, up to the handler that throws. -/
theorem visitT_calls {call : CallT ω δ H} {poll : PollT ω δ H} {d : Nat} {e : Event δ} {id : Nat} {hs : List (Option H)}
    (hc : ∀ s e t s', call s e = .ok (t, s') → Does b (d + 1) (d + 1) s s') (hl : ∀ s t s', poll s = .ok (t, s') → Does b (d + 1) (d + 1) s s') :
    ∀ (n i : Nat) (s : ES ω δ H) (t : Bool) (s' : ES ω δ H), MapRep s → hs <+: (attached s.trace id).take s.cfg.handlerCap → i + n = hs.length →
      visitT (handleT b beh call poll d e) id n i s = .ok (t, s') →
      ∃ new k, s'.trace = new ++ s.trace ∧ (callsAt d new).reverse.map (fun c => (some c.1, c.2)) = ((hs.drop i).take k).map (fun x => (x, e)) ∧
        k ≤ n ∧ (t = false → k = n) ∧
        (t = true → ∃ (s1 : ES ω δ H) (y : H) (rest : List (H × Event δ)), callsAt d new = (y, e) :: rest ∧
          execT b call poll { s1 with trace := .called y e d s1.clock :: s1.trace } (beh y s1.trace e) = .ok (true, s'))
  | 0, i, s, t, s', _, _, hi, h => by
    cases h
    exact ⟨[], 0, rfl, by simp [callsAt], le_refl _, fun _ => rfl, fun h => by cases h⟩
  | n + 1, i, s, t, s', hm, hp, hi, h => by
    obtain ⟨v, x, t1, s1, hv, hx, h1, hor⟩ := visitT_step h
    obtain ⟨y, rfl, hex, hdo⟩ := handleT_does hc hl h1
    obtain ⟨new, h3, _, h4⟩ := hdo.adds
    have hnew : s1.trace = (new ++ [.called y e d s.clock]) ++ s.trace := by rw [h3, List.append_assoc]; rfl
    have hcall : callsAt d (new ++ [.called y e d s.clock]) = [(y, e)] := by
      rw [callsAt_append, h4 d (by omega)]; simp [callsAt]
    have hg : Grows s s1 := ((Does.called s y e (le_refl d)).trans (hdo.weaken (le_refl _) (Nat.le_succ d))).keeps (objs := []) |>.1
    obtain ⟨post, log, rfl, hlen⟩ := hm.slot id v hv
    have hget : hs[i]? = some (some y) := by
      obtain ⟨r, hr⟩ := hp
      simp only [Vec.mk', List.nil_append] at hx
      rw [← hr, List.append_assoc, List.getElem?_append_left (by omega)] at hx
      exact hx
    have hlt : i < hs.length := by omega
    have hyi : hs[i] = some y := by
      rw [List.getElem?_eq_getElem hlt] at hget; exact Option.some.inj hget
    rcases hor with ⟨rfl, rfl, rfl⟩ | ⟨rfl, h2⟩
    · refine ⟨_, 1, hnew, ?_, by omega, fun h => (by cases h), fun _ => ⟨s, y, [], hcall, hex⟩⟩
      rw [hcall, List.drop_eq_getElem_cons hlt, hyi]
      simp
    · have hp1 : hs <+: (attached s1.trace id).take s1.cfg.handlerCap := by
        refine hp.trans ?_
        rw [hg.cfg, hnew]
        obtain ⟨r, hr⟩ := attached_append id s.trace (new ++ [.called y e d s.clock])
        rw [← hr, List.take_append]
        exact List.prefix_append _ _
      obtain ⟨new', k, h5, h6, h7, h8, h9⟩ := visitT_calls hc hl n (i + 1) s1 t s' (hg.map hm) hp1 (by omega) h2
      refine ⟨new' ++ (new ++ [.called y e d s.clock]), k + 1, by rw [h5, hnew]; simp only [List.append_assoc], ?_, by omega, fun h => by rw [h8 h], fun h => ?_⟩
      · rw [callsAt_append, hcall, List.reverse_append, List.map_append, h6, List.drop_eq_getElem_cons hlt, hyi]
        simp
      · obtain ⟨s2, z, rest, e1, e2⟩ := h9 h
        exact ⟨s2, z, rest ++ [(y, e)], by rw [callsAt_append, e1, hcall]; rfl, e2⟩

/-- A range-based `for` that ends without an exception has called every handler attached, and each call returned. -/
theorem visitT_all {f : ES ω δ H → Option H → Res (Bool × ES ω δ H)} {id : Nat} {hs : List (Option H)} (hf : ∀ s x t s', f s x = .ok (t, s') → Grows s s') :
    ∀ (n i : Nat) (s s' : ES ω δ H), MapRep s → hs <+: (attached s.trace id).take s.cfg.handlerCap → i + n = hs.length →
      visitT f id n i s = .ok (false, s') → ∀ x ∈ hs.drop i, ∃ s1 s2, f s1 x = .ok (false, s2)
  | 0, i, s, s', _, _, hi, _ => by rw [List.drop_of_length_le (by omega)]; simp
  | n + 1, i, s, s', hm, hp, hi, h => by
    obtain ⟨v, x, t1, s1, hv, hx, h1, ⟨_, h2, _⟩ | ⟨rfl, h2⟩⟩ := visitT_step h
    · cases h2
    have hg := hf _ _ _ _ h1
    obtain ⟨post, log, rfl, hlen⟩ := hm.slot id v hv
    have hlt : i < hs.length := by omega
    have hget : hs[i]? = some x := by
      obtain ⟨r, hr⟩ := hp
      simp only [Vec.mk', List.nil_append] at hx
      rw [← hr, List.append_assoc, List.getElem?_append_left (by omega)] at hx
      exact hx
    have hyi : hs[i] = x := by
      rw [List.getElem?_eq_getElem hlt] at hget; exact Option.some.inj hget
    have hp1 : hs <+: (attached s1.trace id).take s1.cfg.handlerCap := by
      refine hp.trans ?_
      obtain ⟨l, hl⟩ := hg.trace
      rw [hg.cfg, hl]
      obtain ⟨r, hr⟩ := attached_append id s.trace l
      rw [← hr, List.take_append]
      exact List.prefix_append _ _
    have ih := visitT_all hf n (i + 1) s1 s' (hg.map hm) hp1 (by omega) h2
    rw [List.drop_eq_getElem_cons hlt, hyi]
    intro z hz
    rcases List.mem_cons.mp hz with rfl | hz
    · exact ⟨s, s1, h1⟩
    · exact ih z hz

/-- If `trigger` returns, no handler attached throws whatever has happened before. -/
theorem triggerT_throws {rounds fuel d : Nat} {e : Event δ} (hm : MapRep s) (h : triggerT b beh rounds fuel d s e = .ok (false, s')) {y : H}
    (hy : some y ∈ (attached s.trace e.id).take s.cfg.handlerCap) : ∃ tr, beh y tr e ≠ .throw := by
  cases fuel with
  | zero => cases h
  | succ fuel =>
    unfold triggerT at h
    simp only [bind_ok] at h
    obtain ⟨_, _, v, hv, _, _, h⟩ := h
    have hv1 : s.map[e.id]? = some v := by
      unfold rd at hv
      cases hx : s.map[e.id]? with
      | none => rw [hx] at hv; cases hv
      | some w => rw [hx] at hv; rw [Except.ok.inj hv]
    obtain ⟨post, log, rfl, hl⟩ := hm.slot e.id v hv1
    have hsm := hm.small
    rw [Vec.size_mk' (by simp only [Vec.Fits, List.length_nil]; omega)] at h
    have hdoes : ∀ (s : ES ω δ H) (x : Option H) (t : Bool) (s' : ES ω δ H),
        handleT b beh (triggerT b beh rounds fuel (d + 1)) (fun s => s.loopT b (triggerT b beh rounds fuel (d + 1)) (d + 1) rounds) d e s x = .ok (t, s') →
        Grows s s' := fun s x t s' h => by
      obtain ⟨z, rfl, _, h2⟩ := handleT_does (triggerT_does fuel (d + 1)) (fun s t s' h => loopT_does (triggerT_does fuel (d + 1)) h) h
      exact ((Does.called s z e (le_refl d)).trans (h2.weaken (le_refl _) (Nat.le_succ d))).keeps (objs := []) |>.1
    obtain ⟨s1, s2, h3⟩ := visitT_all hdoes _ _ s s' hm (List.prefix_refl _) (by simp [Vec.mk']) h (some y) (by simpa [Vec.mk'] using hy)
    refine ⟨s1.trace, fun hbeh => ?_⟩
    simp only [handleT, deref, res_bind_ok, hbeh, execT] at h3
    cases h3

/-- If the `while` loop of `loop()` returns, it has delivered no event with a handler that throws whatever has happened before. -/
theorem drainT_throws {rounds nest d id : Nat} {y : H} (hbeh : ∀ tr e, e.id = id → beh y tr e = .throw) :
    ∀ (fuel : Nat) (s s' : ES ω δ H), MapRep s → some y ∈ (attached s.trace id).take s.cfg.handlerCap →
      s.drainT b (triggerT b beh rounds nest d) d fuel = .ok (false, s') →
      ∃ new, s'.trace = new ++ s.trace ∧ ∀ e t, Entry.fired e t d ∈ new → e.id ≠ id
  | 0, s, s', _, _, h => by cases h
  | fuel + 1, s, s', hm, hy, h => by
    obtain ⟨due, pipe, h1, ⟨rfl, _, rfl⟩ | ⟨rfl, o, pipe', t2, s2, h2, h3, h4⟩⟩ := drainT_step h
    · exact ⟨[], rfl, by simp⟩
    rcases h4 with ⟨_, h4, _⟩ | ⟨rfl, h4⟩
    · cases h4
    have hdo := triggerT_nested nest d _ _ _ _ h3
    obtain ⟨n, hn, h5, _⟩ := hdo.adds
    have hg : Grows s (s2.unhold o) := (Does.fired h1 h2 (le_refl d) (hdo.weaken (Nat.le_succ d) (le_refl d))).keeps (objs := []) |>.1
    have hid : (pipe'.heap o).id ≠ id := by
      intro hid
      have hm' : MapRep ({ s.hold o with pipe := pipe', trace := .fired (pipe'.heap o) s.clock d :: s.trace } : ES ω δ H) := hm.same rfl rfl (fun _ => rfl)
      obtain ⟨tr, htr⟩ := triggerT_throws hm' h3 (y := y) (by simpa only [attached, ES.hold, hid] using hy)
      exact htr (hbeh tr _ hid)
    have hy' : some y ∈ (attached (s2.unhold o).trace id).take (s2.unhold o).cfg.handlerCap := by
      obtain ⟨l, hl⟩ := hg.trace
      rw [hg.cfg, hl]
      obtain ⟨r, hr⟩ := attached_append id s.trace l
      rw [← hr, List.take_append]
      exact List.mem_append_left _ hy
    obtain ⟨new, h6, h7⟩ := drainT_throws hbeh fuel _ _ (hg.map hm) hy' h4
    refine ⟨new ++ (n ++ [.fired (pipe'.heap o) s.clock d]), ?_, fun e t he => ?_⟩
    · rw [h6]; simp only [ES.unhold, hn, List.append_assoc, List.singleton_append]
    · rcases List.mem_append.mp he with he | he
      · exact h7 e t he
      · rcases List.mem_append.mp he with he | he
        · have := h5 e t d he; omega
        · simp only [List.mem_singleton, Entry.fired.injEq] at he
          rw [he.1]; exact hid

/-- When the `while` loop of `loop()` ends without an exception nothing is due. -/
theorem drainT_keeps {call : CallT ω δ H} {d : Nat} (hc : ∀ s e t s', call s e = .ok (t, s') → Does b d d s s') :
    ∀ (fuel : Nat) (s s' : ES ω δ H), s.drainT b call d fuel = .ok (false, s') → Tame s' → ∀ q, Inv objs s q →
    ∃ q', Inv objs s' q' ∧ ∀ x ∈ q', near s'.clock < x.deadline
  | 0, s, s', h => by cases h
  | fuel + 1, s, s', h => by
    intro ht q hq
    obtain ⟨due, pipe, h1, ⟨rfl, _, rfl⟩ | ⟨rfl, o, pipe', t2, s2, h2, h3, h4⟩⟩ := drainT_step h
    · refine ⟨q, ?_⟩
      obtain ⟨heap', e1, e2, e3⟩ := Pipe.containsExpired_spec (b := b) hq.pipe hq.clock ht.1
      rw [e1] at h1
      obtain ⟨e4, rfl⟩ := Prod.mk.inj (Except.ok.inj h1)
      refine ⟨hq.same e2 e3, ?_⟩
      intro x hx
      cases q with
      | nil => simp at hx
      | cons y q =>
        simp only [List.head?_cons, Option.any_some, decide_eq_false_iff_not, not_le] at e4
        have hs := (List.pairwise_cons.mp hq.pipe.sorted).1
        rcases List.mem_cons.mp hx with rfl | hx
        · exact e4
        · have := hs x hx; simp only at e4 ⊢; omega
    · have h5 : Does b d d s (s2.unhold o) := .fired h1 h2 (le_refl d) (hc _ _ _ _ h3)
      rcases h4 with ⟨_, h4, _⟩ | ⟨_, h4⟩
      · cases h4
      · have hg := (drainT_does hc fuel _ _ _ h4).keeps (objs := objs) |>.1
        obtain ⟨q2, h6⟩ := (h5.keeps (objs := objs)).2 (hg.tame ht) q hq
        exact drainT_keeps hc fuel _ _ h4 ht q2 h6

/-! ### Programs that do not throw -/

/-- Returning. -/
def returned : Res (ES ω δ H) → Res (Bool × ES ω δ H) := Except.map fun s => (false, s)

theorem returned_bind {α : Type} (x : Res α) (f : α → Res (ES ω δ H)) : returned (x >>= f) = x >>= fun a => returned (f a) := by
  cases x <;> rfl

theorem bind_returned {α : Type} (x : Res (ES ω δ H)) (f : Bool × ES ω δ H → Res α) : (returned x >>= f) = x >>= fun s => f (false, s) := by
  cases x <;> rfl

theorem triggerIdT_lift {call : ES ω δ H → Event δ → Res (ES ω δ H)} {callT : CallT ω δ H} (hc : ∀ s e, callT s e = returned (call s e))
    (id : Nat) (data : δ) : s.triggerIdT b callT id data = returned (s.triggerId b call id data) := by
  unfold triggerIdT triggerId
  rw [returned_bind]
  congr 1; funext ⟨x, s0⟩
  simp only [returned_bind, hc, bind_returned]
  rfl

theorem execT_lift {call : ES ω δ H → Event δ → Res (ES ω δ H)} {callT : CallT ω δ H} (hc : ∀ s e, callT s e = returned (call s e))
    {poll : ES ω δ H → Res (ES ω δ H)} {pollT : PollT ω δ H} (hl : ∀ s, pollT s = returned (poll s)) (p : Prog ω δ H) :
    ∀ s : ES ω δ H, s.execT b callT pollT p.lift = returned (s.exec b call poll p) := by
  induction p with
  | done => intro s; rfl
  | now k ih => intro s; simp only [Prog.lift, execT, exec, ih]
  | wait ms k ih => intro s; simp only [Prog.lift, execT, exec, ih]
  | schedule id delay data k ih => intro s; simp only [Prog.lift, execT, exec, ih, returned_bind]
  | trigger id data k ih =>
    intro s; simp only [Prog.lift, execT, exec, returned_bind, triggerIdT_lift hc, bind_returned, Bool.false_eq_true, if_false, ih]
  | event id delay data k ih => intro s; simp only [Prog.lift, execT, exec, ih, returned_bind]
  | submit o k ih => intro s; simp only [Prog.lift, execT, exec, ih, returned_bind]
  | drop o k ih => intro s; simp only [Prog.lift, execT, exec, ih, returned_bind]
  | attach id x k ih => intro s; simp only [Prog.lift, execT, exec, ih, returned_bind]
  | loop k ih =>
    intro s; simp only [Prog.lift, execT, exec, returned_bind, hl, bind_returned, Bool.false_eq_true, if_false, ih]

theorem visitT_lift {f : ES ω δ H → Option H → Res (ES ω δ H)} {fT : ES ω δ H → Option H → Res (Bool × ES ω δ H)}
    (hf : ∀ s x, fT s x = returned (f s x)) (id : Nat) : ∀ (n i : Nat) (s : ES ω δ H), visitT fT id n i s = returned (visit f id n i s)
  | 0, _, _ => rfl
  | n + 1, i, s => by
    simp only [visitT, visit, returned_bind, hf, bind_returned, Bool.false_eq_true, if_false, visitT_lift hf id n]

theorem drainT_lift {call : ES ω δ H → Event δ → Res (ES ω δ H)} {callT : CallT ω δ H} (hc : ∀ s e, callT s e = returned (call s e)) (d : Nat) :
    ∀ (fuel : Nat) (s : ES ω δ H), s.drainT b callT d fuel = returned (s.drainWith b call d fuel)
  | 0, _ => rfl
  | fuel + 1, s => by
    unfold drainT drainWith
    rw [returned_bind]
    congr 1; funext ⟨due, pipe⟩
    cases due with
    | false => rfl
    | true =>
      simp only [if_true]
      rw [returned_bind]
      congr 1; funext ⟨x, pipe'⟩
      simp only [returned_bind, hc, bind_returned, Bool.false_eq_true, if_false, drainT_lift hc d fuel]

theorem loopT_lift {call : ES ω δ H → Event δ → Res (ES ω δ H)} {callT : CallT ω δ H} (hc : ∀ s e, callT s e = returned (call s e)) (d fuel : Nat)
    (s : ES ω δ H) : s.loopT b callT d fuel = returned (s.loopWith b call d fuel) := by
  unfold loopT loopWith
  rw [returned_bind, drainT_lift hc, bind_returned]
  congr 1

theorem triggerT_lift {beh : Behaviour ω δ H} {rounds : Nat} : ∀ (fuel d : Nat) (s : ES ω δ H) (e : Event δ),
    triggerT b (fun h tr e => (beh h tr e).lift) rounds fuel d s e = returned (trigger b beh rounds fuel d s e)
  | 0, _, _, _ => rfl
  | fuel + 1, d, s, e => by
    unfold triggerT trigger
    simp only [returned_bind]
    congr 1; funext _
    congr 1; funext v
    congr 1; funext _
    refine visitT_lift (fun s x => ?_) _ _ _ _
    unfold handleT handle
    rw [returned_bind]
    congr 1; funext h
    exact execT_lift (triggerT_lift fuel (d + 1)) (fun s => loopT_lift (triggerT_lift fuel (d + 1)) _ _ s) _ _

end ES
end Spine
