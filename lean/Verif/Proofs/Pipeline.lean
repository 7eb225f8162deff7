import Verif.Model.Pipeline
import Verif.Proofs.Pool
import Verif.Proofs.Timers
/-!
# Lemmas about the pipeline
-/

namespace Spine

variable {ω δ : Type}

/-- The longest uptime (in ms, about 34 years) considered for the order of the pipeline. -/
abbrev maxClock : Int := 2 ^ 40
/-- The longest delay (in ms, about 2.3 hours) considered for the order of the pipeline. -/
abbrev maxDelay : Int := 2 ^ 23

theorem msLt_near {a b : Int} (hb : |b| ≤ 2 ^ 62) : msLt a b = .ok (decide (a < near b)) := by
  simp only [msLt, KTime.lt, fromOther_mid _ hb, res_bind_ok, res_pure]

theorem near_clock {now : Int} (h0 : 0 ≤ now) (h1 : now ≤ maxClock) : |near now - now| ≤ 2 ^ 16 := by
  refine (near_bound now).trans ?_
  rw [abs_of_nonneg h0]
  simp only [maxClock] at h1; omega

theorem near_nonneg {v : Int} (h : 0 ≤ v) : 0 ≤ near v := by
  have := near_mono h; rwa [near_zero] at this

theorem timeFromNow_eq {a : Alarm} {now : Int} (h0 : 0 ≤ now) (h1 : now ≤ maxClock) (hf0 : 0 ≤ a.future)
    (hf : a.future ≤ now + maxDelay) : a.timeFromNow now = .ok (a.future - near now) := by
  have hn := near_clock h0 h1
  have hp := near_nonneg h0
  unfold Alarm.timeFromNow
  simp only [maxClock, maxDelay] at h1 hf
  rw [msSub_near (by rw [abs_of_nonneg h0]; omega)]
  rw [abs_le] at hn
  exact i64_small (by rw [abs_le]; constructor <;> omega)

/-- Comparing the times left compares the deadlines. -/
theorem lt_exact {now f g : Int} (h0 : 0 ≤ now) (h1 : now ≤ maxClock) (hf : now ≤ f) (hg0 : 0 ≤ g) (hg : g ≤ now + maxDelay) :
    msLt (f - near now) (g - near now) = .ok (decide (f < g)) := by
  have hn := near_clock h0 h1
  have hp := near_nonneg h0
  simp only [maxClock, maxDelay] at h1 hg
  rw [abs_le] at hn
  rw [msLt_near (by rw [abs_le]; constructor <;> omega)]
  by_cases hs : g - near now < - 2 ^ 24
  · have h2 : near (g - near now) ≤ - 2 ^ 24 := by
      have := near_mono (le_of_lt hs)
      rwa [near_eq (v := - 2 ^ 24) (by norm_num)] at this
    congr 1
    rw [decide_eq_decide]
    constructor <;> intro h <;> omega
  · rw [near_eq (v := g - near now) (by rw [abs_le]; constructor <;> omega)]
    congr 1
    rw [decide_eq_decide]
    constructor <;> intro h <;> omega

theorem reschedule_spec {b : Build} {e : Event δ} {now : Int} (hd : 0 ≤ e.timeFromNow) (hd' : e.timeFromNow ≤ maxDelay)
    (hb : b = .release ∨ 0 < e.timeFromNow) (h0 : 0 ≤ now) (h1 : now ≤ maxClock) :
    e.reschedule b 0 now = .ok { e with timer := ⟨now + e.timeFromNow, false⟩ } := by
  have hz : near 0 = 0 := near_zero
  simp only [maxClock, maxDelay] at h1 hd'
  have hn : near e.timeFromNow = e.timeFromNow := near_eq (by rw [abs_of_nonneg hd]; omega)
  have h2 : KTime.ne .milli .milli 0 0 = .ok false := by
    simp only [KTime.ne, KTime.eq, fromOther_mid .milli (show |(0 : Int)| ≤ 2 ^ 62 by norm_num), res_bind_ok, res_pure, hz]
    rfl
  unfold Event.reschedule
  simp only [h2, res_bind_ok, Bool.false_eq_true, if_false]
  rw [msGt_near (by norm_num), hz, res_bind_ok]
  have ha : spnAssert b (decide (e.timeFromNow > 0)) = .ok () := by
    rcases hb with rfl | hb
    · simp
    · simp [hb]
  simp only [ha, res_bind_ok, Alarm.create, Bool.false_eq_true, if_false]
  rw [msAdd_near (by rw [abs_of_nonneg hd]; omega), hn, i64_small (by rw [abs_le]; constructor <;> omega)]
  rfl

/-- What the poll of an alarm does, when a sticky flag is only set on alarms that are due. -/
theorem poll_spec {a : Alarm} {now : Int} (h0 : 0 ≤ now) (h1 : now ≤ maxClock) (hs : a.expired = true → a.future ≤ near now) :
    a.poll now = .ok (decide (a.future ≤ near now), ⟨a.future, decide (a.future ≤ near now)⟩) := by
  unfold Alarm.poll
  simp only [maxClock] at h1
  by_cases hx : a.expired = true
  · rw [if_pos hx]
    have := hs hx
    cases a; simp_all
  · rw [if_neg hx, msLe_near (by rw [abs_of_nonneg h0]; omega), res_bind_ok]
    cases a
    simp only [Bool.not_eq_true] at hx
    subst hx
    split <;> simp_all

set_option linter.unusedSectionVars false

namespace Pipe

variable [DecidableEq ω] {b : Build} {n : Nat} {p : Pipe ω δ} {q : List (Item ω)} {now : Int}

@[simp] theorem store_vec (p : Pipe ω δ) (o : ω) (e : Event δ) : (p.store o e).vec = p.vec := rfl
@[simp] theorem store_same (p : Pipe ω δ) (o : ω) (e : Event δ) : (p.store o e).heap o = e := by simp [store]
theorem store_other (p : Pipe ω δ) {o x : ω} (e : Event δ) (h : x ≠ o) : (p.store o e).heap x = p.heap x := by simp [store, h]

/-- Two heaps which differ at most in the sticky flags of alarms. -/
def Same (h h' : ω → Event δ) : Prop := ∀ o, ∃ f, h' o = { h o with timer := ⟨(h o).timer.future, f⟩ }

theorem Same.refl (h : ω → Event δ) : Same h h := fun o => ⟨(h o).timer.expired, rfl⟩

theorem Same.trans {h1 h2 h3 : ω → Event δ} (a : Same h1 h2) (c : Same h2 h3) : Same h1 h3 := by
  intro o
  obtain ⟨f, hf⟩ := a o
  obtain ⟨g, hg⟩ := c o
  exact ⟨g, by rw [hg, hf]⟩

theorem same_store (p : Pipe ω δ) (o : ω) (f : Bool) :
    Same p.heap (p.store o { p.heap o with timer := ⟨(p.heap o).timer.future, f⟩ }).heap := by
  intro x
  by_cases h : x = o
  · subst h; exact ⟨f, by simp⟩
  · exact ⟨(p.heap x).timer.expired, by rw [store_other _ _ h]⟩

/-- The pipe holds the agenda `q`. -/
structure Rep (n : Nat) (p : Pipe ω δ) (q : List (Item ω)) (now : Int) : Prop where
  vec : Vec.Exact (sharedPtr ω) n p.vec (q.map fun x => some x.obj)
  nodup : (q.map (·.obj)).Nodup
  deadline : ∀ x ∈ q, (p.heap x.obj).timer.future = x.deadline
  sticky : ∀ x ∈ q, (p.heap x.obj).timer.expired = true → x.deadline ≤ near now
  sorted : q.Pairwise (fun a c => a.deadline ≤ c.deadline)
  low : ∀ x ∈ q, 0 ≤ x.deadline
  high : ∀ x ∈ q, x.deadline ≤ now + maxDelay

theorem Rep.size (h : Rep n p q now) : p.vec.size = q.length := by
  have := h.vec.rep.holds.1; simpa using this

theorem Rep.empty (h : Rep n p q now) : p.vec.empty = q.isEmpty := by
  simp only [Vec.empty, h.size]
  cases q <;> simp

theorem Rep.contains (h : Rep n p q now) : p.containsFutures = !q.isEmpty := by rw [containsFutures, h.empty]

theorem Rep.maxSize (h : Rep n p q now) : p.vec.maxSize = n := h.vec.rep.maxSize

theorem Rep.later (h : Rep n p q now) {now' : Int} (hl : now ≤ now') : Rep n p q now' :=
  { h with
    sticky := fun x hx he => (h.sticky x hx he).trans (near_mono hl)
    high := fun x hx => by have := h.high x hx; omega }

/-- A change of objects that are not pending does not matter. -/
theorem Rep.heap (h : Rep n p q now) (heap' : ω → Event δ)
    (hh : ∀ x ∈ q, (heap' x.obj).timer.future = (p.heap x.obj).timer.future ∧
      ((heap' x.obj).timer.expired = true → (p.heap x.obj).timer.expired = true ∨ x.deadline ≤ near now)) :
    Rep n { p with heap := heap' } q now :=
  { h with
    deadline := fun x hx => by rw [(hh x hx).1, h.deadline x hx]
    sticky := fun x hx he => ((hh x hx).2 he).elim (h.sticky x hx) id }

theorem Rep.peek {x : Item ω} (h : Rep n p (x :: q) now) : p.vec.peekFront b = .ok (some x.obj) := by
  obtain ⟨v', h1, _⟩ := h.vec.step (b := b) (op := .peekFront) (o := .val (some x.obj)) (q' := (x :: q).map fun x => some x.obj)
    (fun _ => rfl) (by simp [Seq.step]) trivial trivial
  simp only [Vec.step] at h1
  cases hv : p.vec.peekFront b with
  | error e => rw [hv] at h1; cases h1
  | ok r =>
    rw [hv, res_bind_ok, res_pure] at h1
    obtain ⟨h2, _⟩ := Prod.mk.inj (Except.ok.inj h1)
    rw [Vec.Out.val.inj h2]

theorem Rep.pop {x : Item ω} (h : Rep n p (x :: q) now) :
    ∃ v', p.vec.popFront b (sharedPtr ω) true = .ok (some x.obj, v') ∧ Rep n { p with vec := v' } q now := by
  obtain ⟨v', h1, h2⟩ := h.vec.step (b := b) (op := .popFront true) (o := .val (some x.obj)) (q' := q.map fun x => some x.obj)
    (fun _ => rfl) (by simp [Seq.step]) trivial rfl
  simp only [Vec.step] at h1
  cases hv : p.vec.popFront b (sharedPtr ω) true with
  | error e => rw [hv] at h1; cases h1
  | ok r =>
    obtain ⟨y, v⟩ := r
    rw [hv, res_bind_ok, res_pure] at h1
    obtain ⟨h3, rfl⟩ := Prod.mk.inj (Except.ok.inj h1)
    obtain rfl := Vec.Out.val.inj h3
    exact ⟨v, rfl, h2, (List.nodup_cons.mp h.nodup).2, fun y hy => h.deadline y (by simp [hy]),
      fun y hy => h.sticky y (by simp [hy]), (List.pairwise_cons.mp h.sorted).2, fun y hy => h.low y (by simp [hy]),
      fun y hy => h.high y (by simp [hy])⟩

/-- `expired()` on an object whose sticky flag is sound. -/
theorem expired_spec (h0 : 0 ≤ now) (h1 : now ≤ maxClock) (o : ω)
    (hs : (p.heap o).timer.expired = true → (p.heap o).timer.future ≤ near now) :
    p.expired (some o) now = .ok (decide ((p.heap o).timer.future ≤ near now),
      p.store o { p.heap o with timer := ⟨(p.heap o).timer.future, decide ((p.heap o).timer.future ≤ near now)⟩ }) := by
  simp only [expired, deref, res_bind_ok, poll_spec h0 h1 hs, res_pure]

theorem Rep.touch (h : Rep n p q now) (o : ω) (f : Bool) (hf : f = true → (p.heap o).timer.future ≤ near now) :
    Rep n (p.store o { p.heap o with timer := ⟨(p.heap o).timer.future, f⟩ }) q now := by
  refine h.heap _ fun x hx => ?_
  by_cases hxo : x.obj = o
  · simp only [hxo, if_true, true_and]
    intro hft
    right
    have := h.deadline x hx
    rw [hxo] at this
    rw [← this]; exact hf hft
  · simp only [hxo, if_false, true_and]
    exact fun he => .inl he

theorem containsExpired_spec (h : Rep n p q now) (h0 : 0 ≤ now) (h1 : now ≤ maxClock) :
    ∃ heap', p.containsExpired b now = .ok (q.head?.any (fun x => decide (x.deadline ≤ near now)), { p with heap := heap' }) ∧
      Same p.heap heap' ∧ Rep n { p with heap := heap' } q now := by
  unfold containsExpired
  rw [h.contains]
  cases q with
  | nil => exact ⟨p.heap, rfl, Same.refl _, h⟩
  | cons x q =>
    have hd := h.deadline x (by simp)
    have hs := h.sticky x (by simp)
    simp only [List.isEmpty_cons, Bool.not_false, if_true, h.peek, res_bind_ok, List.head?_cons, Option.any_some]
    rw [expired_spec h0 h1 x.obj (by rw [hd]; exact hs)]
    refine ⟨_, by rw [hd]; rfl, same_store p _ _, ?_⟩
    have := h.touch x.obj (decide (x.deadline ≤ near now)) (by rw [hd]; simp)
    rw [hd] at this ⊢; exact this

theorem expire_spec {x : Item ω} (h : Rep n p (x :: q) now) (h0 : 0 ≤ now) (h1 : now ≤ maxClock) (hdue : x.deadline ≤ near now) :
    ∃ p', p.expire b now = .ok (some x.obj, p') ∧ Same p.heap p'.heap ∧ Rep n p' q now := by
  obtain ⟨v', hv, hr⟩ := h.pop (b := b)
  have hd := h.deadline x (by simp)
  have hne : p.vec.empty = false := by rw [h.empty]; rfl
  unfold expire
  rw [hne]
  simp only [Bool.not_false, spnAssert_true, res_bind_ok, Bool.false_eq_true, if_false, hv, Option.isSome_some]
  -- the object after one poll
  have key : ∀ p1 : Pipe ω δ, Same p.heap p1.heap → Rep n p1 q now →
      ∃ p2, p1.expired (some x.obj) now = .ok (true, p2) ∧ Same p.heap p2.heap ∧ Rep n p2 q now := by
    intro p1 hs hr1
    obtain ⟨f, hf⟩ := hs x.obj
    have hd1 : (p1.heap x.obj).timer.future ≤ near now := by rw [hf]; simpa [hd] using hdue
    rw [expired_spec h0 h1 x.obj (fun _ => hd1)]
    have hr2 := hr1.touch x.obj (decide ((p1.heap x.obj).timer.future ≤ near now)) (by simp)
    refine ⟨_, ?_, hs.trans (same_store p1 _ _), hr2⟩
    simp [hd1]
  obtain ⟨p2, k1, k2, k3⟩ := key { p with vec := v' } (Same.refl _) hr
  obtain ⟨p3, m1, m2, m3⟩ := key p2 k2 k3
  cases b with
  | release =>
    simp only [assertExpired, res_bind_ok, k1, if_true, res_pure]
    exact ⟨p2, rfl, k2, k3⟩
  | debug =>
    simp only [assertExpired, res_bind_ok, k1, spnAssert_true, res_pure, m1, if_true]
    exact ⟨p3, rfl, m2, m3⟩

theorem timeUntilNext_spec (h : Rep n p q now) (h0 : 0 ≤ now) (h1 : now ≤ maxClock) :
    p.timeUntilNext b now = .ok (match q.head? with
      | some x => if x.deadline ≤ near now then 0 else x.deadline - near now
      | none => 0) := by
  unfold timeUntilNext
  rw [h.contains]
  cases q with
  | nil => rfl
  | cons x q =>
    have hd := h.deadline x (by simp)
    have hl := h.low x (by simp)
    have hh := h.high x (by simp)
    have hn := near_clock h0 h1
    have hp := near_nonneg h0
    rw [abs_le] at hn
    simp only [maxClock, maxDelay] at h1 hh
    simp only [List.isEmpty_cons, Bool.not_false, Bool.not_true, Bool.false_eq_true, if_false, h.peek, res_bind_ok, deref, hd,
      List.head?_cons]
    rw [msLe_near (by rw [abs_of_nonneg h0]; omega), res_bind_ok, msSub_near (by rw [abs_of_nonneg h0]; omega),
      i64_small (by rw [abs_le]; constructor <;> omega)]
    by_cases hc : x.deadline ≤ near now <;> simp [hc]

/-- The loop of `push` finds the first entry that is due later. -/
theorem scan_spec {o : ω} {d : Int} (h : Rep n p q now) (h0 : 0 ≤ now) (h1 : now ≤ maxClock)
    (hf : (p.heap o).timer.future = d) (hd0 : now ≤ d) (hd : d ≤ now + maxDelay) :
    ∀ (fuel k : Nat), k ≤ q.length → q.length - k < fuel →
    p.scan o (fun _ => (now, now)) (p.vec.head + k) k fuel
      = .ok ((q.drop k).findIdx? (fun y => decide (d < y.deadline)) |>.map (· + k))
  | 0, _, _, h => by omega
  | fuel + 1, k, hk, hfu => by
    obtain ⟨pre, post, log, hv, hl, hn, _⟩ := h.vec
    have hlen : pre.length + q.length + post.length = n := by simpa using hl
    have hstore : p.vec.store = pre ++ (q.map fun x => some x.obj) ++ post := by rw [hv]; rfl
    have hhead : p.vec.head = pre.length := by rw [hv]; rfl
    have htail : p.vec.tail = pre.length + q.length := by rw [hv]; simp [Vec.mk']
    unfold scan
    by_cases hend : k = q.length
    · subst hend
      rw [if_pos (by rw [hhead, htail])]
      simp
    · have hlt : k < q.length := by omega
      rw [if_neg (by rw [hhead, htail]; omega)]
      have hrd : rd p.vec.store (p.vec.head + k) = .ok (some q[k].obj) := by
        rw [hstore, hhead, Vec.rd_window k (by simpa using hlt)]; simp
      have hm : q[k] ∈ q := List.getElem_mem _
      have hdk := h.deadline _ hm
      have hlk := h.low _ hm
      have hhk := h.high _ hm
      simp only [hrd, res_bind_ok, deref]
      rw [timeFromNow_eq h0 h1 (by omega) (by omega), res_bind_ok, timeFromNow_eq h0 h1 (by omega) (by omega), res_bind_ok, hf, hdk,
        lt_exact h0 h1 hd0 hlk hhk, res_bind_ok]
      have hdrop : q.drop k = q[k] :: q.drop (k + 1) := by rw [List.drop_eq_getElem_cons hlt]
      rw [hdrop, List.findIdx?_cons]
      by_cases hc : d < q[k].deadline
      · simp [hc]
      · simp only [hc, decide_false, Bool.false_eq_true, if_false]
        rw [uadd_lt (by rw [hhead]; omega), Nat.add_assoc, scan_spec h h0 h1 hf hd0 hd fuel (k + 1) (by omega) (by omega)]
        congr 1
        rw [Option.map_map]
        congr 1
        funext i
        simp only [Function.comp]; omega

theorem insert_eq_take_drop (x : Item ω) : ∀ (q : List (Item ω)), q.Pairwise (fun a c => a.deadline ≤ c.deadline) →
    Agenda.insert x q = match q.findIdx? (fun y => decide (x.deadline < y.deadline)) with
      | some i => q.take i ++ x :: q.drop i
      | none => q ++ [x]
  | [], _ => rfl
  | y :: q, hs => by
    rw [List.pairwise_cons] at hs
    have ih := insert_eq_take_drop x q hs.2
    rw [List.findIdx?_cons]
    unfold Agenda.insert at ih ⊢
    by_cases hc : x.deadline < y.deadline
    · have : ¬ y.deadline ≤ x.deadline := by omega
      simp [hc, this]
    · have : y.deadline ≤ x.deadline := by omega
      simp only [List.takeWhile_cons, this, decide_true, if_true, List.dropWhile_cons, hc, decide_false, Bool.false_eq_true,
        if_false, List.cons_append, ih]
      cases q.findIdx? fun y => decide (x.deadline < y.deadline) <;> simp

theorem mem_insert {x y : Item ω} {q : List (Item ω)} : y ∈ Agenda.insert x q ↔ y = x ∨ y ∈ q := by
  unfold Agenda.insert
  rw [List.mem_append, List.mem_cons]
  conv_rhs => rw [← List.takeWhile_append_dropWhile (p := fun z : Item ω => decide (z.deadline ≤ x.deadline)) (l := q), List.mem_append]
  tauto

theorem insert_perm (x : Item ω) (q : List (Item ω)) : (Agenda.insert x q).Perm (x :: q) := by
  unfold Agenda.insert
  refine List.perm_middle.trans ?_
  rw [List.takeWhile_append_dropWhile]

theorem takeWhile_all {α : Type} {f : α → Bool} : ∀ {l : List α} {x : α}, x ∈ l.takeWhile f → f x = true
  | [], _, h => by simp at h
  | y :: l, x, h => by
    rw [List.takeWhile_cons] at h
    split at h
    · rcases List.mem_cons.mp h with rfl | h
      · assumption
      · exact takeWhile_all h
    · simp at h

/-- In a sorted agenda the entries behind the insertion point are due later. -/
theorem dropWhile_later {d : Int} : ∀ {q : List (Item ω)}, q.Pairwise (fun a c => a.deadline ≤ c.deadline) →
    ∀ y ∈ q.dropWhile (fun y => decide (y.deadline ≤ d)), d < y.deadline
  | [], _, y, h => by simp at h
  | z :: q, hs, y, h => by
    rw [List.pairwise_cons] at hs
    rw [List.dropWhile_cons] at h
    split at h
    · exact dropWhile_later hs.2 y h
    · next hc =>
      simp only [decide_eq_true_eq, not_le] at hc
      rcases List.mem_cons.mp h with rfl | h
      · exact hc
      · have := hs.1 y h; omega

theorem insert_sorted {x : Item ω} {q : List (Item ω)} (hs : q.Pairwise (fun a c => a.deadline ≤ c.deadline)) :
    (Agenda.insert x q).Pairwise (fun a c => a.deadline ≤ c.deadline) := by
  unfold Agenda.insert
  have hs' := hs
  rw [← List.takeWhile_append_dropWhile (p := fun z : Item ω => decide (z.deadline ≤ x.deadline)) (l := q), List.pairwise_append] at hs'
  obtain ⟨h1, h2, h3⟩ := hs'
  rw [List.pairwise_append]
  refine ⟨h1, List.pairwise_cons.mpr ⟨fun y hy => le_of_lt (dropWhile_later hs y hy), h2⟩, ?_⟩
  intro a ha c hc
  rcases List.mem_cons.mp hc with rfl | hc
  · simpa using takeWhile_all ha
  · exact h3 a ha c hc

theorem insert_before {x : Item ω} {q : List (Item ω)} (hs : q.Pairwise Item.Before) (hx : ∀ y ∈ q, y.arrival < x.arrival) :
    (Agenda.insert x q).Pairwise Item.Before := by
  have hd : q.Pairwise (fun a c => a.deadline ≤ c.deadline) :=
    hs.imp (fun {a c} h => by rcases h with h | ⟨h, _⟩ <;> omega)
  unfold Agenda.insert
  have hs' := hs
  rw [← List.takeWhile_append_dropWhile (p := fun z : Item ω => decide (z.deadline ≤ x.deadline)) (l := q), List.pairwise_append] at hs'
  obtain ⟨h1, h2, h3⟩ := hs'
  rw [List.pairwise_append]
  refine ⟨h1, List.pairwise_cons.mpr ⟨fun y hy => .inl (dropWhile_later hd y hy), h2⟩, ?_⟩
  intro a ha c hc
  rcases List.mem_cons.mp hc with rfl | hc
  · have h4 : a.deadline ≤ c.deadline := by simpa using takeWhile_all ha
    have h5 := hx a ((List.takeWhile_prefix _).subset ha)
    rcases lt_or_eq_of_le h4 with h | h
    · exact .inl h
    · exact .inr ⟨h, h5⟩
  · exact h3 a ha c hc

/-- Pushing an object that is not pending. -/
theorem push_spec {o : ω} (k : Nat) (h : Rep n p q now) (h0 : 0 ≤ now) (h1 : now ≤ maxClock) (hroom : q.length < n)
    (ho : o ∉ q.map (·.obj)) (hd : 0 ≤ (p.heap o).timeFromNow) (hd' : (p.heap o).timeFromNow ≤ maxDelay)
    (hb : b = .release ∨ 0 < (p.heap o).timeFromNow) :
    ∃ v', p.push b (some o) now (fun _ => (now, now))
        = .ok { vec := v', heap := (p.store o { p.heap o with timer := ⟨now + (p.heap o).timeFromNow, false⟩ }).heap } ∧
      Rep n { vec := v', heap := (p.store o { p.heap o with timer := ⟨now + (p.heap o).timeFromNow, false⟩ }).heap }
        (Agenda.insert ⟨o, now + (p.heap o).timeFromNow, k⟩ q) now := by
  have hne : ∀ x ∈ q, x.obj ≠ o := fun x hx he => ho (he ▸ List.mem_map_of_mem hx)
  have hrep : Rep n (p.store o { p.heap o with timer := ⟨now + (p.heap o).timeFromNow, false⟩ }) q now :=
    h.heap _ (fun x hx => by simp only [hne x hx, if_false, true_and]; exact fun he => .inl he)
  have hins := insert_eq_take_drop ⟨o, now + (p.heap o).timeFromNow, k⟩ q h.sorted
  have final : ∀ v', Vec.Exact (sharedPtr ω) n v' ((Agenda.insert ⟨o, now + (p.heap o).timeFromNow, k⟩ q).map fun x => some x.obj) →
      Rep n { vec := v', heap := (p.store o { p.heap o with timer := ⟨now + (p.heap o).timeFromNow, false⟩ }).heap }
        (Agenda.insert ⟨o, now + (p.heap o).timeFromNow, k⟩ q) now := by
    intro v' hv
    refine ⟨hv, ?_, ?_, ?_, insert_sorted h.sorted, ?_, ?_⟩
    · refine ((insert_perm _ q).map _).nodup_iff.mpr ?_
      rw [List.map_cons, List.nodup_cons]
      exact ⟨ho, h.nodup⟩
    · intro x hx
      rcases mem_insert.mp hx with rfl | hx
      · simp
      · exact hrep.deadline x hx
    · intro x hx
      rcases mem_insert.mp hx with rfl | hx
      · simp
      · exact hrep.sticky x hx
    · intro x hx
      rcases mem_insert.mp hx with rfl | hx
      · simp only; omega
      · exact h.low x hx
    · intro x hx
      rcases mem_insert.mp hx with rfl | hx
      · simp only; omega
      · exact h.high x hx
  unfold push
  rw [h.size, h.maxSize]
  simp only [hroom, decide_true, spnAssert_true, res_bind_ok, deref, reschedule_spec hd hd' hb h0 h1]
  have hscan := scan_spec (o := o) (d := now + (p.heap o).timeFromNow) hrep h0 h1 (by simp) (by omega) (by omega) (q.length + 1) 0
    (by omega) (by omega)
  simp only [Nat.add_zero, List.drop_zero, store_vec, Option.map_id_fun', id] at hscan
  simp only [store_vec, h.size, hscan, res_bind_ok]
  cases hfi : q.findIdx? (fun y => decide (now + (p.heap o).timeFromNow < y.deadline)) with
  | none =>
    simp only [hfi] at hins
    obtain ⟨v', e1, e2⟩ := h.vec.step (b := b) (op := .pushBack (some o)) (o := .unit)
      (q' := (q.map fun x => some x.obj) ++ [some o]) (fun _ => rfl) (by simp [Seq.step, hroom]) trivial trivial
    simp only [Vec.step] at e1
    cases hv : p.vec.pushBack b (sharedPtr ω) (some o) with
    | error e => rw [hv] at e1; cases e1
    | ok v =>
      rw [hv, res_bind_ok, res_pure] at e1
      obtain ⟨_, rfl⟩ := Prod.mk.inj (Except.ok.inj e1)
      refine ⟨v, by simp only [place, store_vec, hv, res_bind_ok, res_pure], final v ?_⟩
      rw [hins]; simpa using e2
  | some i =>
    simp only [hfi] at hins
    obtain ⟨v', e1, e2⟩ := h.vec.step (b := b) (op := .insert i (some o)) (o := .unit)
      (q' := (q.map fun x => some x.obj).take i ++ some o :: (q.map fun x => some x.obj).drop i) (fun _ => rfl)
      (by simp [Seq.step, hroom]) trivial trivial
    simp only [Vec.step] at e1
    cases hv : p.vec.insert b (sharedPtr ω) i (some o) with
    | error e => rw [hv] at e1; cases e1
    | ok v =>
      rw [hv, res_bind_ok, res_pure] at e1
      obtain ⟨_, rfl⟩ := Prod.mk.inj (Except.ok.inj e1)
      have hsz : v.size = q.length + 1 := by
        have := e2.rep.holds.1
        rw [this, List.length_append, List.length_cons]
        simp; omega
      refine ⟨v, ?_, final v ?_⟩
      · simp only [place, store_vec, hv, res_bind_ok, h.size, hsz, decide_true, spnAssert_true, res_pure]
      · rw [hins, List.map_append, List.map_cons, List.map_take, List.map_drop]; exact e2

end Pipe
end Spine
