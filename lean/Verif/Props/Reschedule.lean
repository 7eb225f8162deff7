import Verif.Props.PipelineTicks
/-!
# C160: rescheduling a future that is in the pipeline

`Future::reschedule` is documented to have "no effect when the future is already in the pipeline" (`pipeline.hpp:24-26`).  It sets the
future's timer (`pipeline.cpp:9-13`), and the pipeline, which holds a pointer to the future, asks that timer (`pipeline.hpp:64`,
`pipeline.cpp:58-67`).  Times are below 2^24 ms, where they are exact.
-/

namespace Spine

variable {ω δ : Type} [DecidableEq ω] {b : Build}

namespace Pipe

/-- The loop of a user who serves a pipeline at a given time: `while (contains_expired_futures()) expire()`, as in
`eventsystem.cpp:74-76`; `fuel` bounds the rounds. -/
def serveAll (b : Build) (now : Int) : Nat → Pipe ω δ → Res (List ω × Pipe ω δ)
  | 0, _ => .error .fuel
  | fuel + 1, p => do
    let (x, p) ← p.serve b now
    match x with
    | none => return ([], p)
    | some o =>
      let (os, p) ← serveAll b now fuel p
      return (o :: os, p)

/-- Serve a pipeline at each of the given times; what came out, all in all. -/
def serveAt (b : Build) (fuel : Nat) : List Int → Pipe ω δ → Res (List ω × Pipe ω δ)
  | [], p => return ([], p)
  | t :: ts, p => do
    let (os, p) ← p.serveAll b t fuel
    let (more, p) ← serveAt b fuel ts p
    return (os ++ more, p)

/-- The pipelines of capacity `n` a user can get to by time `now`, pushing futures (pending or not) while there is room, rescheduling
futures (pending or not), and serving. -/
inductive Handled (b : Build) (n : Nat) : Int → Pipe ω δ → Prop
  | create (heap : ω → Event δ) : Handled b n 0 { vec := Vec.create (sharedPtr ω) n, heap }
  | wait {t t' : Int} {p : Pipe ω δ} : Handled b n t p → t ≤ t' → t' ≤ 2 ^ 24 → Handled b n t' p
  | push {t last delay : Int} {p p' : Pipe ω δ} {o : ω} {reads : Nat → Int × Int} : Handled b n t p → p.vec.size < n → 0 < delay →
      delay ≤ 2 ^ 23 → t ≤ last → last ≤ 2 ^ 24 → Readings (2 ^ 25) t last reads →
      (p.store o { p.heap o with timeFromNow := delay }).push b (some o) t reads = .ok p' → Handled b n last p'
  | reschedule {t delay : Int} {p : Pipe ω δ} {o : ω} {e : Event δ} : Handled b n t p → 0 < delay → delay ≤ 2 ^ 23 →
      (p.heap o).reschedule b delay t = .ok e → Handled b n t (p.store o e)
  | serve {t : Int} {p p' : Pipe ω δ} {x : Option ω} : Handled b n t p → p.serve b t = .ok (x, p') → Handled b n t p'

theorem reschedule_to {e : Event δ} {delay now : Int} (hd : 0 < delay) (hd' : delay ≤ 2 ^ 23) (h0 : 0 ≤ now) (h1 : now ≤ 2 ^ 24) :
    e.reschedule b delay now = .ok { e with timeFromNow := delay, timer := ⟨now + delay, false⟩ } := by
  have hz : near 0 = 0 := near_zero
  have hn : near delay = delay := near_small hd.le (by omega)
  have h2 : KTime.ne .milli .milli delay 0 = .ok true := by
    simp only [KTime.ne, KTime.eq, fromOther_mid .milli (show |(0 : Int)| ≤ 2 ^ 62 by norm_num), res_bind_ok, res_pure, hz]
    simp [hd.ne']
  unfold Event.reschedule
  simp only [h2, res_bind_ok, if_true]
  rw [msGt_near (by norm_num), hz, res_bind_ok]
  simp only [gt_iff_lt, hd, decide_true, spnAssert_true, res_bind_ok, Alarm.create, Bool.false_eq_true, if_false]
  rw [msAdd_near (by rw [abs_of_pos hd]; omega), hn, i64_small (by rw [abs_le]; constructor <;> omega)]
  rfl

variable {n : Nat} {p : Pipe ω δ} {q : List (Item ω)} {now : Int}

/-- The entry of a future whose timer is set to `dl`. -/
def movedItem (o : ω) (dl : Int) (x : Item ω) : Item ω := if x.obj = o then { x with deadline := dl } else x

@[simp] theorem movedItem_obj (o : ω) (dl : Int) (x : Item ω) : (movedItem o dl x).obj = x.obj := by
  unfold movedItem; split <;> rfl

theorem any_order {q : List (Item ω)} (hl : ∀ x ∈ q, 0 ≤ x.deadline) (hh : ∀ x ∈ q, x.deadline ≤ 2 ^ 25) :
    q.Pairwise (fun a c => a.deadline ≤ c.deadline + 2 ^ 25) :=
  List.pairwise_iff_forall_sublist.mpr fun {a c} hs => by
    have := hh a (hs.subset (by simp)); have := hl c (hs.subset (by simp)); omega

/-- Setting the timer of a future: its entries move to the new deadline, and stay where they are. -/
theorem Loose.retime {o : ω} {delay : Int} {e : Event δ} (h : Loose (2 ^ 25) n p q now) (h0 : 0 ≤ now) (h1 : now ≤ 2 ^ 24) (hd : 0 < delay)
    (hd' : delay ≤ 2 ^ 23) (he : e.timer = ⟨now + delay, false⟩) :
    Loose (2 ^ 25) n (p.store o e) (q.map (movedItem o (now + delay))) now := by
  have cases : ∀ x ∈ q, (x.obj = o ∧ movedItem o (now + delay) x = { x with deadline := now + delay }) ∨
      (x.obj ≠ o ∧ movedItem o (now + delay) x = x) := by
    intro x _
    unfold movedItem
    by_cases hx : x.obj = o <;> simp [hx]
  have low : ∀ x ∈ q.map (movedItem o (now + delay)), 0 ≤ x.deadline := by
    intro y hy
    obtain ⟨x, hx, rfl⟩ := List.mem_map.mp hy
    rcases cases x hx with ⟨_, e⟩ | ⟨_, e⟩ <;> rw [e]
    · simp only; omega
    · exact h.low x hx
  have high : ∀ x ∈ q.map (movedItem o (now + delay)), x.deadline ≤ now + 2 ^ 23 := by
    intro y hy
    obtain ⟨x, hx, rfl⟩ := List.mem_map.mp hy
    rcases cases x hx with ⟨_, e⟩ | ⟨_, e⟩ <;> rw [e]
    · simp only; omega
    · exact h.high x hx
  refine ⟨?_, ?_, ?_, any_order low (fun x hx => by have := high x hx; omega), low, high⟩
  · have : (q.map (movedItem o (now + delay))).map (fun x => some x.obj) = q.map fun x => some x.obj := by
      rw [List.map_map]; congr 1; funext x; simp
    rw [this]; exact h.vec
  · intro y hy
    obtain ⟨x, hx, rfl⟩ := List.mem_map.mp hy
    rcases cases x hx with ⟨ho, e'⟩ | ⟨ho, e'⟩ <;> rw [e']
    · simp only [ho, store_same, he]
    · simp only [store, ho, if_false]; exact h.deadline x hx
  · intro y hy
    obtain ⟨x, hx, rfl⟩ := List.mem_map.mp hy
    rcases cases x hx with ⟨ho, e'⟩ | ⟨ho, e'⟩ <;> rw [e']
    · simp only [ho, store_same, he]; simp
    · simp only [store, ho, if_false]; exact h.sticky x hx

theorem Handled.loose {t : Int} {p : Pipe ω δ} (hn : n < sizeMod) (h : Handled b n t p) : ∃ q, Loose (2 ^ 25) n p q t ∧ 0 ≤ t ∧ t ≤ 2 ^ 24 := by
  induction h with
  | create heap =>
    refine ⟨[], ⟨(Pipe.Rep.start n hn heap 0).vec, ?_, ?_, ?_, ?_, ?_⟩, le_rfl, by norm_num⟩ <;> simp
  | wait _ h1 h2 ih =>
    obtain ⟨q, hq, h0, -⟩ := ih
    exact ⟨q, hq.later h1, h0.trans h1, h2⟩
  | @push t last delay p p' o reads _ hroom h1 h2 h3 h4 hr e ih =>
    obtain ⟨q, hq, h0, hm⟩ := ih
    obtain ⟨p'', q', e', hq', -⟩ := Loose.enter (b := b) (o := o) (p := p) (k := 0) (last := last) (reads := reads) rfl
      (hq.retime h0 hm h1 h2 (o := o) rfl) (by norm_num) h0 h3 h4 hr (by rw [List.length_map, ← hq.size]; exact hroom) h1 h2
    rw [e'] at e
    cases e
    exact ⟨q', hq', h0.trans h3, h4⟩
  | @reschedule t delay p o e _ h1 h2 he ih =>
    obtain ⟨q, hq, h0, hm⟩ := ih
    rw [reschedule_to h1 h2 h0 hm] at he
    cases he
    exact ⟨_, hq.retime h0 hm h1 h2 rfl, h0, hm⟩
  | serve _ e ih =>
    obtain ⟨q, hq, h0, h1⟩ := ih
    rcases hq.serve (b := b) h0 h1 with ⟨x, q', p', rfl, -, e', hq'⟩ | ⟨-, p', e', hq', -⟩
    · rw [e'] at e; cases e; exact ⟨q', hq', h0, h1⟩
    · rw [e'] at e; cases e; exact ⟨q, hq', h0, h1⟩

/-- The entries, from what a pipeline holds. -/
theorem Loose.due {d : Int} {due : List (ω × Int)} (hq : Loose d n p q now) (hh : p.HoldsDue due) : q.map (fun x => (x.obj, x.deadline)) = due := by
  have e1 : q.map (·.obj) = due.map Prod.fst := by
    have := congrArg (List.filterMap id) (hq.vec.rep.holds.unique hh.1)
    simpa [List.filterMap_map, Function.comp_def] using this
  have key : ∀ (q : List (Item ω)) (due : List (ω × Int)), q.map (·.obj) = due.map Prod.fst → (∀ x ∈ q, (p.heap x.obj).timer.future = x.deadline) →
      (∀ x ∈ due, (p.heap x.1).timer.future = x.2) → q.map (fun x => (x.obj, x.deadline)) = due := by
    intro q
    induction q with
    | nil => intro due e _ _; simpa using e
    | cons x q ih =>
      intro due e g1 g2
      cases due with
      | nil => simp at e
      | cons y due =>
        simp only [List.map_cons, List.cons.injEq] at e
        rw [List.map_cons, ih due e.2 (fun z hz => g1 z (by simp [hz])) (fun z hz => g2 z (by simp [hz]))]
        have a1 := g1 x (by simp)
        have a2 := g2 y (by simp)
        rw [e.1] at a1
        rw [← a1, a2, e.1]
  exact key q due e1 hq.deadline hh.2

theorem Loose.serveAll {d : Int} : ∀ {fuel : Nat} {p : Pipe ω δ} {q : List (Item ω)}, Loose d n p q now → 0 ≤ now → now ≤ 2 ^ 24 → q.length < fuel →
    ∃ p', p.serveAll b now fuel = .ok ((q.takeWhile fun x => decide (x.deadline ≤ now)).map (·.obj), p') ∧
      Loose d n p' (q.dropWhile fun x => decide (x.deadline ≤ now)) now
  | 0, _, _, _, _, _, h => by omega
  | fuel + 1, p, q, h, h0, h1, hf => by
    rcases h.serve (b := b) h0 h1 with ⟨x, q', p', rfl, hx, e', hq'⟩ | ⟨hx, p', e', hq', -⟩
    · obtain ⟨p2, e2, h2⟩ := hq'.serveAll (fuel := fuel) h0 h1 (by simp only [List.length_cons] at hf; omega)
      refine ⟨p2, ?_, by simpa [List.dropWhile_cons, hx] using h2⟩
      simp only [Pipe.serveAll, e', res_bind_ok, e2, res_pure, List.takeWhile_cons, hx, decide_true, if_true, List.map_cons]
    · have ht : q.takeWhile (fun x => decide (x.deadline ≤ now)) = [] ∧ q.dropWhile (fun x => decide (x.deadline ≤ now)) = q := by
        cases q with
        | nil => exact ⟨rfl, rfl⟩
        | cons y q =>
          have : ¬ y.deadline ≤ now := not_le.mpr (hx y (by simp))
          simp [this]
      refine ⟨p', ?_, by rw [ht.2]; exact hq'⟩
      simp only [Pipe.serveAll, e', res_bind_ok, res_pure, ht.1, List.map_nil]

theorem takeWhile_mono {α : Type} {f g : α → Bool} (h : ∀ x, f x = true → g x = true) : ∀ l : List α,
    l.takeWhile g = l.takeWhile f ++ (l.dropWhile f).takeWhile g
  | [] => rfl
  | x :: l => by
    by_cases hf : f x = true
    · simp [List.takeWhile_cons, List.dropWhile_cons, hf, h x hf, takeWhile_mono h l]
    · simp [List.takeWhile_cons, List.dropWhile_cons, hf]

theorem dropWhile_mono {α : Type} {f g : α → Bool} (h : ∀ x, f x = true → g x = true) : ∀ l : List α,
    l.dropWhile g = (l.dropWhile f).dropWhile g
  | [] => rfl
  | x :: l => by
    by_cases hf : f x = true
    · simp [List.dropWhile_cons, hf, h x hf, dropWhile_mono h l]
    · simp [List.dropWhile_cons, hf]

theorem Loose.serveAt {d : Int} {fuel : Nat} : ∀ {ts : List Int} {now : Int} {p : Pipe ω δ} {q : List (Item ω)}, Loose d n p q now → 0 ≤ now →
    (now :: ts).Pairwise (· ≤ ·) → (∀ t ∈ ts, t ≤ 2 ^ 24) → q.length < fuel →
    ∃ p', p.serveAt b fuel ts = .ok ((match ts.getLast? with
      | none => []
      | some t => (q.takeWhile fun x => decide (x.deadline ≤ t)).map (·.obj)), p')
  | [], _, _, _, _, _, _, _, _ => ⟨_, rfl⟩
  | t :: ts, now, p, q, h, h0, hs, hm, hf => by
    have hs' := List.pairwise_cons.mp hs
    have ht : now ≤ t := hs'.1 t (by simp)
    obtain ⟨p1, e1, h1⟩ := (h.later ht).serveAll (b := b) (fuel := fuel) (h0.trans ht) (hm t (by simp)) hf
    obtain ⟨p2, e2⟩ := h1.serveAt (fuel := fuel) (h0.trans ht) hs'.2 (fun x hx => hm x (by simp [hx]))
      (lt_of_le_of_lt (List.Sublist.length_le (List.dropWhile_sublist _)) hf)
    refine ⟨p2, ?_⟩
    simp only [Pipe.serveAt, e1, res_bind_ok, e2, res_pure]
    congr 2
    cases ts with
    | nil => simp
    | cons u ts =>
      rw [List.getLast?_cons_cons]
      obtain ⟨l, hl⟩ : ∃ l, (u :: ts).getLast? = some l := ⟨_, List.getLast?_cons ..⟩
      have hle : t ≤ l := (List.pairwise_cons.mp hs'.2).1 l (List.mem_of_getLast? hl)
      rw [hl]
      simp only
      rw [takeWhile_mono (f := fun x : Item ω => decide (x.deadline ≤ t)) (g := fun x : Item ω => decide (x.deadline ≤ l))
        (fun x hx => by simp only [decide_eq_true_eq] at hx ⊢; omega) q, List.map_append]

end Pipe

open Pipe

variable {n : Nat} {t : Int} {p : Pipe ω δ} {due : List (ω × Int)}

/-- C160: whatever has been pushed and rescheduled, once a pipeline has been served at some times, the last of them `last`, what has come
out is the longest stretch of futures, from the front, all of which are due by `last`, in the order in which they were queued. -/
theorem C160_served (hn : n < sizeMod) (h : Handled b n t p) (hh : p.HoldsDue due) {ts : List Int} {last : Int}
    (hs : (t :: ts ++ [last]).Pairwise (· ≤ ·)) (hl : last ≤ 2 ^ 24) :
    ∃ p', p.serveAt b (n + 1) (ts ++ [last]) = .ok ((due.takeWhile fun x => decide (x.2 ≤ last)).map Prod.fst, p') := by
  obtain ⟨q, hq, h0, h1⟩ := h.loose hn
  have hdue := hq.due hh
  have hlen : q.length ≤ n := by
    obtain ⟨pre, post, log, -, h3, -⟩ := hq.vec.rep
    simp only [List.length_map] at h3
    omega
  obtain ⟨p', e⟩ := hq.serveAt (b := b) (fuel := n + 1) (ts := ts ++ [last]) h0 (by simpa using hs) (fun x hx => by
    rcases List.mem_append.mp hx with hx | hx
    · have := (List.pairwise_append.mp (by simpa using (List.pairwise_cons.mp hs).2)).2.2 x hx last (by simp)
      omega
    · obtain rfl : x = last := by simpa using hx
      exact hl) (by omega)
  refine ⟨p', ?_⟩
  rw [e]
  simp only [List.getLast?_append, List.getLast?_singleton, Option.some_or]
  rw [← hdue, List.takeWhile_map, List.map_map]
  rfl

/-- C160: what rescheduling a future does to a pipeline: the future, if it is pending, keeps its place in the queue and is due after the new
delay. -/
theorem C160_reschedule (hn : n < sizeMod) (h : Handled b n t p) (hh : p.HoldsDue due) (o : ω) {delay : Int} (hd : 0 < delay) (hd' : delay ≤ 2 ^ 23) :
    ∃ e, (p.heap o).reschedule b delay t = .ok e ∧ Handled b n t (p.store o e) ∧
      (p.store o e).HoldsDue (due.map fun x => if x.1 = o then (o, t + delay) else x) := by
  obtain ⟨q, hq, h0, h1⟩ := h.loose hn
  have he := reschedule_to (b := b) (e := p.heap o) hd hd' h0 h1
  refine ⟨_, he, .reschedule h hd hd' he, ?_⟩
  have := (hq.retime h0 h1 hd hd' (o := o) (e := { p.heap o with timeFromNow := delay, timer := ⟨t + delay, false⟩ }) rfl).holds
  rw [← hq.due hh]
  rw [List.map_map] at this ⊢
  convert this using 2
  funext x
  simp only [Function.comp_apply, movedItem]
  by_cases hx : x.obj = o <;> simp [hx]

/-- C160: pushing a future that is pending already: it keeps the place it has, with a new deadline, and gets a second place. -/
theorem C160_again (hn : n < sizeMod) (h : Handled b n t p) (hh : p.HoldsDue due) (hroom : due.length < n) (o : ω) {delay last : Int}
    {reads : Nat → Int × Int} (hd : 0 < delay) (hd' : delay ≤ 2 ^ 23) (hl : t ≤ last) (hl' : last ≤ 2 ^ 24) (hr : Readings (2 ^ 25) t last reads) :
    ∃ p' i, (p.store o { p.heap o with timeFromNow := delay }).push b (some o) t reads = .ok p' ∧ Handled b n last p' ∧
      p'.HoldsDue ((due.map fun x => if x.1 = o then (o, t + delay) else x).take i ++ (o, t + delay) ::
        (due.map fun x => if x.1 = o then (o, t + delay) else x).drop i) := by
  obtain ⟨q, hq, h0, h1⟩ := h.loose hn
  have hlen : q.length < n := by rw [← hq.due hh] at hroom; simpa using hroom
  obtain ⟨p', q', e, hq', -, i, rfl⟩ := Loose.enter (b := b) (o := o) (p := p) (k := 0) (last := last) (reads := reads) rfl
      (hq.retime h0 h1 hd hd' (o := o) rfl) (by norm_num) h0 hl hl' hr (by simpa using hlen) hd hd'
  refine ⟨p', i, e, .push h (by rw [hq.size]; exact hlen) hd hd' hl hl' hr e, ?_⟩
  have := hq'.holds
  rw [← hq.due hh]
  have hmap : (q.map fun x => (x.obj, x.deadline)).map (fun x => if x.1 = o then (o, t + delay) else x) =
      (q.map (movedItem o (t + delay))).map (fun x => (x.obj, x.deadline)) := by
    rw [List.map_map, List.map_map]
    congr 1
    funext x
    simp only [Function.comp_apply, movedItem]
    by_cases hx : x.obj = o <;> simp [hx]
  rw [hmap]
  simpa using this

/-- What has come out of a pipeline served at some times, the last of them `last`. -/
def Comes (b : Build) (n : Nat) (p : Pipe ω δ) (ts : List Int) (last : Int) (os : List ω) : Prop :=
  ∃ p', p.serveAt b (n + 1) (ts ++ [last]) = .ok (os, p')

theorem comes_iff (hn : n < sizeMod) (h : Handled b n t p) (hh : p.HoldsDue due) {ts : List Int} {last : Int} {os : List ω}
    (hs : (t :: ts ++ [last]).Pairwise (· ≤ ·)) (hl : last ≤ 2 ^ 24) :
    Comes b n p ts last os ↔ os = (due.takeWhile fun x => decide (x.2 ≤ last)).map Prod.fst := by
  obtain ⟨p', e⟩ := C160_served (b := b) hn h hh hs hl
  constructor
  · rintro ⟨p2, e2⟩
    rw [e] at e2
    exact (Prod.mk.inj (Except.ok.inj e2)).1.symm
  · rintro rfl
    exact ⟨p', e⟩

theorem takeWhile_all {α : Type} {f : α → Bool} : ∀ {l : List α}, (∀ x ∈ l, f x = true) → l.takeWhile f = l
  | [], _ => rfl
  | x :: l, h => by rw [List.takeWhile_cons, if_pos (h x (by simp)), takeWhile_all fun y hy => h y (by simp [hy])]

theorem retimed_map {due : List (ω × Int)} {o : ω} {dl : Int} (h : o ∉ due.map Prod.fst) :
    (due.map fun x => if x.1 = o then (o, dl) else x) = due := by
  conv_rhs => rw [← List.map_id due]
  refine List.map_congr_left fun x hx => ?_
  have hne : x.1 ≠ o := fun he => h (he ▸ List.mem_map_of_mem hx)
  simp [hne]

theorem retimed_fst (due : List (ω × Int)) (o : ω) (dl : Int) :
    (due.map fun x => if x.1 = o then (o, dl) else x).map Prod.fst = due.map Prod.fst := by
  rw [List.map_map]
  refine List.map_congr_left fun x _ => ?_
  simp only [Function.comp_apply]
  by_cases hx : x.1 = o <;> simp [hx]

section effect

variable {o : ω} {d delay last : Int} {front rest : List (ω × Int)} {e : Event δ} {ts : List Int} {os os' : List ω}

/-- C160: with or without rescheduling, futures come out in the order in which they are queued. -/
theorem C160_order_partial (hn : n < sizeMod) (h : Handled b n t p) (hh : p.HoldsDue due) (hd : 0 < delay) (hd' : delay ≤ 2 ^ 23)
    (he : (p.heap o).reschedule b delay t = .ok e) (hs : (t :: ts ++ [last]).Pairwise (· ≤ ·)) (hl : last ≤ 2 ^ 24)
    (h1 : Comes b n p ts last os) (h2 : Comes b n (p.store o e) ts last os') : os <+: due.map Prod.fst ∧ os' <+: due.map Prod.fst := by
  obtain ⟨e', he', g1, g2⟩ := C160_reschedule (b := b) hn h hh o hd hd'
  rw [he] at he'
  cases he'
  rw [comes_iff hn h hh hs hl] at h1
  rw [comes_iff hn g1 g2 hs hl] at h2
  subst h1 h2
  exact ⟨(List.takeWhile_prefix _).map _, by rw [← retimed_fst due o (t + delay)]; exact (List.takeWhile_prefix _).map _⟩

/-- C160: rescheduling a future has no effect on the futures queued before it. -/
theorem C160_front_partial (hn : n < sizeMod) (h : Handled b n t p) (hh : p.HoldsDue (front ++ (o, d) :: rest)) (ho : o ∉ front.map Prod.fst)
    (hd : 0 < delay) (hd' : delay ≤ 2 ^ 23) (he : (p.heap o).reschedule b delay t = .ok e) (hs : (t :: ts ++ [last]).Pairwise (· ≤ ·))
    (hl : last ≤ 2 ^ 24) (h1 : Comes b n p ts last os) (h2 : Comes b n (p.store o e) ts last os') :
    os.take front.length = os'.take front.length := by
  obtain ⟨e', he', g1, g2⟩ := C160_reschedule (b := b) hn h hh o hd hd'
  rw [he] at he'
  cases he'
  rw [comes_iff hn h hh hs hl] at h1
  rw [comes_iff hn g1 g2 hs hl, List.map_append, retimed_map ho] at h2
  have key : ∀ (front r : List (ω × Int)), (((front ++ r).takeWhile fun x => decide (x.2 ≤ last)).map Prod.fst).take front.length =
      (front.takeWhile fun x => decide (x.2 ≤ last)).map Prod.fst := by
    intro front r
    induction front with
    | nil => simp
    | cons x front ih => by_cases hx : x.2 ≤ last <;> simp [List.takeWhile_cons, hx, ih]
  rw [h1, h2, key, key]

/-- C160: rescheduling a future has no effect at all while a future queued before it is due at or after both its old and its new deadline. -/
theorem C160_covered_partial (hn : n < sizeMod) (h : Handled b n t p) (hh : p.HoldsDue (front ++ (o, d) :: rest)) (ho : o ∉ front.map Prod.fst)
    (ho' : o ∉ rest.map Prod.fst) (hd : 0 < delay) (hd' : delay ≤ 2 ^ 23) (he : (p.heap o).reschedule b delay t = .ok e)
    (hs : (t :: ts ++ [last]).Pairwise (· ≤ ·)) (hl : last ≤ 2 ^ 24) {y : ω × Int} (hy : y ∈ front) (hy1 : d ≤ y.2) (hy2 : t + delay ≤ y.2) :
    Comes b n p ts last os ↔ Comes b n (p.store o e) ts last os := by
  obtain ⟨e', he', g1, g2⟩ := C160_reschedule (b := b) hn h hh o hd hd'
  rw [he] at he'
  cases he'
  rw [comes_iff hn h hh hs hl, comes_iff hn g1 g2 hs hl, List.map_append, List.map_cons, retimed_map ho, retimed_map ho', if_pos rfl]
  have key : ∀ (front : List (ω × Int)) (x x' : ω × Int) (rest : List (ω × Int)), x.1 = x'.1 → y ∈ front → x.2 ≤ y.2 → x'.2 ≤ y.2 →
      ((front ++ x :: rest).takeWhile fun x => decide (x.2 ≤ last)).map Prod.fst =
        ((front ++ x' :: rest).takeWhile fun x => decide (x.2 ≤ last)).map Prod.fst := by
    intro front x x' rest hx hy h1 h2
    by_cases hall : ∀ z ∈ front, z.2 ≤ last
    · have h3 := hall y hy
      rw [List.takeWhile_append_of_pos (by simpa using hall), List.takeWhile_append_of_pos (by simpa using hall)]
      simp [List.takeWhile_cons, h1.trans h3, h2.trans h3, hx]
    · have : ∀ r : List (ω × Int), (front ++ r).takeWhile (fun x => decide (x.2 ≤ last)) = front.takeWhile (fun x => decide (x.2 ≤ last)) := by
        intro r
        clear hy
        induction front with
        | nil => simp at hall
        | cons z front ih =>
          by_cases hz : z.2 ≤ last
          · simp [List.takeWhile_cons, hz, ih (by simpa [hz] using hall)]
          · simp [List.takeWhile_cons, hz]
      rw [this, this]
  rw [key front (o, d) (o, t + delay) rest rfl hy hy1 hy2]

/-- A future that is rescheduled to a later moment holds up itself and all futures queued behind it, however long these have been due: when
it and the futures before it were due by `last`, it would have come out, but now only the futures before it do. -/
theorem C160_later_counterexample (hn : n < sizeMod) (h : Handled b n t p) (hh : p.HoldsDue (front ++ (o, d) :: rest)) (ho : o ∉ front.map Prod.fst)
    (hd : 0 < delay) (hd' : delay ≤ 2 ^ 23) (he : (p.heap o).reschedule b delay t = .ok e) (hs : (t :: ts ++ [last]).Pairwise (· ≤ ·))
    (hl : last ≤ 2 ^ 24) (hf : ∀ x ∈ front, x.2 ≤ last) (h3 : d ≤ last) (h4 : last < t + delay) :
    (∃ more, Comes b n p ts last (front.map Prod.fst ++ o :: more) ∧ ((∀ x ∈ rest, x.2 ≤ last) → more = rest.map Prod.fst)) ∧
      Comes b n (p.store o e) ts last (front.map Prod.fst) := by
  obtain ⟨e', he', g1, g2⟩ := C160_reschedule (b := b) hn h hh o hd hd'
  rw [he] at he'
  cases he'
  constructor
  · refine ⟨(rest.takeWhile fun x => decide (x.2 ≤ last)).map Prod.fst, ?_, fun hr => ?_⟩
    · rw [comes_iff hn h hh hs hl, List.takeWhile_append_of_pos (by simpa using hf)]
      simp [List.takeWhile_cons, h3]
    · rw [takeWhile_all (by simpa using hr)]
  · rw [comes_iff hn g1 g2 hs hl, List.map_append, retimed_map ho, List.takeWhile_append_of_pos (by simpa using hf)]
    simp [List.takeWhile_cons, not_le.mpr h4]

/-- A future that is rescheduled to an earlier moment comes out earlier, but not before the futures queued before it. -/
theorem C160_earlier_counterexample (hn : n < sizeMod) (h : Handled b n t p) (hh : p.HoldsDue (front ++ (o, d) :: rest)) (ho : o ∉ front.map Prod.fst)
    (hd : 0 < delay) (hd' : delay ≤ 2 ^ 23) (he : (p.heap o).reschedule b delay t = .ok e) (hs : (t :: ts ++ [last]).Pairwise (· ≤ ·))
    (hl : last ≤ 2 ^ 24) (hf : ∀ x ∈ front, x.2 ≤ last) (h3 : last < d) (h4 : t + delay ≤ last) :
    Comes b n p ts last (front.map Prod.fst) ∧ ∃ more, Comes b n (p.store o e) ts last (front.map Prod.fst ++ o :: more) := by
  obtain ⟨e', he', g1, g2⟩ := C160_reschedule (b := b) hn h hh o hd hd'
  rw [he] at he'
  cases he'
  constructor
  · rw [comes_iff hn h hh hs hl, List.takeWhile_append_of_pos (by simpa using hf)]
    simp [List.takeWhile_cons, not_le.mpr h3]
  · refine ⟨((rest.map fun x => if x.1 = o then (o, t + delay) else x).takeWhile fun x => decide (x.2 ≤ last)).map Prod.fst, ?_⟩
    rw [comes_iff hn g1 g2 hs hl, List.map_append, retimed_map ho, List.takeWhile_append_of_pos (by simpa using hf)]
    simp [List.takeWhile_cons, h4]

end effect

/-- A future that is pushed again while pending comes out twice. -/
theorem C160_twice (hn : n < sizeMod) (h : Handled b n t p) (hh : p.HoldsDue due) (hroom : due.length < n) {o : ω} (ho : o ∈ due.map Prod.fst)
    {delay now last : Int} {reads : Nat → Int × Int} {ts : List Int} (hd : 0 < delay) (hd' : delay ≤ 2 ^ 23) (hl : t ≤ now) (hl' : now ≤ 2 ^ 24)
    (hr : Readings (2 ^ 25) t now reads) (hs : (now :: ts ++ [last]).Pairwise (· ≤ ·)) (hlast : last ≤ 2 ^ 24) (hdue : ∀ x ∈ due, x.2 ≤ last)
    (hnew : t + delay ≤ last) :
    ∃ p' os, (p.store o { p.heap o with timeFromNow := delay }).push b (some o) t reads = .ok p' ∧ Comes b n p' ts last os ∧
      os.Perm (o :: due.map Prod.fst) ∧ 2 ≤ os.count o := by
  obtain ⟨p', i, e, h1, h2⟩ := C160_again (b := b) hn h hh hroom o hd hd' hl hl' hr
  have hperm := (List.perm_middle (a := (o, t + delay)) (l₁ := (due.map fun x => if x.1 = o then (o, t + delay) else x).take i)
    (l₂ := (due.map fun x => if x.1 = o then (o, t + delay) else x).drop i))
  rw [List.take_append_drop] at hperm
  have hperm' := hperm.map Prod.fst
  rw [List.map_cons, retimed_fst] at hperm'
  refine ⟨p', _, e, (comes_iff hn h1 h2 hs hlast).mpr rfl, ?_⟩
  rw [takeWhile_all]
  · refine ⟨hperm', ?_⟩
    rw [hperm'.count_eq, List.count_cons_self]
    have := List.count_pos_iff.mpr ho
    omega
  · intro x hx
    rcases List.mem_cons.mp (hperm.subset hx) with rfl | hx
    · simpa using hnew
    · obtain ⟨y, hy, rfl⟩ := List.mem_map.mp hx
      split
      · simpa using hnew
      · simpa using hdue y hy

/-- Three futures, due at 10, 20 and 30; number `o` is rescheduled to `delay` at 0, then the pipeline is served at the given times. -/
def afterMove (o : Nat) (delay : Int) (ts : List Int) : Res (List Nat) := do
  let p ← tickPush (blankPipe 5) 0 10 0 0
  let p ← tickPush p 1 20 0 0
  let p ← tickPush p 2 30 0 0
  let e ← (p.heap o).reschedule .debug delay 0
  let (os, _) ← (p.store o e).serveAt .debug 6 ts
  return os

example : afterMove 1 20 [5, 15, 25, 35] = .ok [0, 1, 2] := by decide +kernel
example : afterMove 1 100 [5, 15, 25, 35] = .ok [0] := by decide +kernel
example : afterMove 2 1 [5] = .ok [] := by decide +kernel
example : afterMove 2 1 [5, 15] = .ok [0] := by decide +kernel
example : afterMove 2 1 [5, 15, 25] = .ok [0, 1, 2] := by decide +kernel

/-- Non-vacuity: two futures, due at 10 and 20, in a pipeline that is reached by pushing them. -/
example : ∃ p : Pipe Nat Nat, Handled b 5 0 p ∧ (p.HoldsDue [(0, 10), (1, 20)] ∨ p.HoldsDue [(1, 20), (0, 10)]) := by
  have h0 : Handled b 5 0 (blankPipe 5) := .create _
  have hv : (blankPipe 5).vec.Holds (([] : List Nat).map some) := (Pipe.Rep.start 5 (lt_sizeMod (by norm_num)) (fun _ => blankEvent) 0).vec.rep.holds
  have hr : Readings (2 ^ 25) 0 0 (fun _ => (0, 0)) := fun _ => by norm_num
  obtain ⟨p, i, -, h1, h2⟩ := C160_again (b := b) (due := []) (delay := 10) (lt_sizeMod (by norm_num)) h0 ⟨hv, by simp⟩ (by simp) 0 (by norm_num)
    (by norm_num) (by norm_num) (by norm_num) hr
  obtain ⟨p', j, -, h3, h4⟩ := C160_again (b := b) (delay := 20) (lt_sizeMod (by norm_num)) h1 h2 (by simp) 1 (by norm_num)
    (by norm_num) (by norm_num) (by norm_num) hr
  refine ⟨p', h3, ?_⟩
  rcases j with _ | j
  · right; simpa using h4
  · left; simpa using h4

end Spine
