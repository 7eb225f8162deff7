import Verif.Props.EventSystem
/-!
# C35 with a clock that ticks while a future is being pushed

Each round of the loop in `Pipeline::push` (`pipeline.cpp:73-74`) reads the clock twice, once for the new future and once for the one it
is compared with; the order of the two readings is up to the compiler.  Times are below 2^24 ms, where they are exact.
-/

namespace Spine

variable {ω δ : Type} [DecidableEq ω] {b : Build}

namespace Pipe

/-- One turn of the loop of a user who serves a pipeline: `if (contains_expired_futures()) expire()`, as in `eventsystem.cpp:74-76`. -/
def serve (b : Build) (p : Pipe ω δ) (now : Int) : Res (Option ω × Pipe ω δ) := do
  let (due, p) ← p.containsExpired b now
  if due then p.expire b now else return (none, p)

/-- The readings made during a `push` at `now`: none is earlier than `now` or later than `last`; the reading for the other future is at
most `d` ms later than the one for the new future, and at most 1 ms earlier. -/
def Readings (d now last : Int) (reads : Nat → Int × Int) : Prop :=
  ∀ i, now ≤ (reads i).1 ∧ now ≤ (reads i).2 ∧ (reads i).1 ≤ last ∧ (reads i).2 ≤ last ∧ (reads i).2 ≤ (reads i).1 + d ∧
    (reads i).1 ≤ (reads i).2 + 1

/-- The pipelines of capacity `n` a user can get to by time `now`, pushing futures that are not pending while there is room, and serving. -/
inductive Ticked (b : Build) (n : Nat) (d : Int) : Int → Pipe ω δ → Prop
  | create (heap : ω → Event δ) : Ticked b n d 0 { vec := Vec.create (sharedPtr ω) n, heap }
  | wait {t t' : Int} {p : Pipe ω δ} : Ticked b n d t p → t ≤ t' → t' ≤ 2 ^ 24 → Ticked b n d t' p
  | push {t last delay : Int} {p p' : Pipe ω δ} {o : ω} {reads : Nat → Int × Int} {pending : List ω} : Ticked b n d t p →
      p.vec.Holds (pending.map some) → pending.length < n → o ∉ pending → 0 < delay → delay ≤ 2 ^ 23 → t ≤ last → last ≤ 2 ^ 24 →
      Readings d t last reads → (p.store o { p.heap o with timeFromNow := delay }).push b (some o) t reads = .ok p' → Ticked b n d last p'
  | serve {t : Int} {p p' : Pipe ω δ} {x : Option ω} : Ticked b n d t p → p.serve b t = .ok (x, p') → Ticked b n d t p'

/-- The pipe holds the entries `q`, in an order that is off by at most `d`. -/
structure Loose (d : Int) (n : Nat) (p : Pipe ω δ) (q : List (Item ω)) (now : Int) : Prop where
  vec : Vec.Exact (sharedPtr ω) n p.vec (q.map fun x => some x.obj)
  deadline : ∀ x ∈ q, (p.heap x.obj).timer.future = x.deadline
  sticky : ∀ x ∈ q, (p.heap x.obj).timer.expired = true → x.deadline ≤ now
  sorted : q.Pairwise (fun a c => a.deadline ≤ c.deadline + d)
  low : ∀ x ∈ q, 0 ≤ x.deadline
  high : ∀ x ∈ q, x.deadline ≤ now + 2 ^ 23

variable {d : Int} {n : Nat} {p : Pipe ω δ} {q : List (Item ω)} {now : Int}

theorem near_small {v : Int} (h0 : 0 ≤ v) (h1 : v ≤ 2 ^ 24) : near v = v := near_eq (by rw [abs_of_nonneg h0]; exact h1)

theorem Loose.size (h : Loose d n p q now) : p.vec.size = q.length := by
  have := h.vec.rep.holds.1; simpa using this

theorem Loose.later (h : Loose d n p q now) {now' : Int} (hl : now ≤ now') : Loose d n p q now' :=
  { h with
    sticky := fun x hx he => (h.sticky x hx he).trans hl
    high := fun x hx => by have := h.high x hx; omega }

theorem Loose.heap (h : Loose d n p q now) (heap' : ω → Event δ)
    (hh : ∀ x ∈ q, (heap' x.obj).timer.future = (p.heap x.obj).timer.future ∧
      ((heap' x.obj).timer.expired = true → (p.heap x.obj).timer.expired = true ∨ x.deadline ≤ now)) :
    Loose d n { p with heap := heap' } q now :=
  { h with
    deadline := fun x hx => by rw [(hh x hx).1, h.deadline x hx]
    sticky := fun x hx he => ((hh x hx).2 he).elim (h.sticky x hx) id }

theorem Loose.touch (h : Loose d n p q now) (o : ω) (f : Bool) (hf : f = true → (p.heap o).timer.future ≤ now) :
    Loose d n (p.store o { p.heap o with timer := ⟨(p.heap o).timer.future, f⟩ }) q now := by
  refine h.heap _ fun x hx => ?_
  by_cases hxo : x.obj = o
  · simp only [hxo, if_true, true_and]
    intro hft
    right
    have := h.deadline x hx
    rw [hxo] at this
    rw [← this]; exact hf hft
  · simp only [hxo, if_false, true_and]
    exact fun he => .inl he

theorem Loose.peek {x : Item ω} (h : Loose d n p (x :: q) now) : p.vec.peekFront b = .ok (some x.obj) := by
  obtain ⟨v', h1, _⟩ := h.vec.step (b := b) (op := .peekFront) (o := .val (some x.obj)) (q' := (x :: q).map fun x => some x.obj)
    (fun _ => rfl) (by simp [Seq.step]) trivial trivial
  simp only [Vec.step] at h1
  cases hv : p.vec.peekFront b with
  | error e => rw [hv] at h1; cases h1
  | ok r =>
    rw [hv, res_bind_ok, res_pure] at h1
    obtain ⟨h2, _⟩ := Prod.mk.inj (Except.ok.inj h1)
    rw [Vec.Out.val.inj h2]

theorem Loose.pop {x : Item ω} (h : Loose d n p (x :: q) now) :
    ∃ v', p.vec.popFront b (sharedPtr ω) true = .ok (some x.obj, v') ∧ Loose d n { p with vec := v' } q now := by
  obtain ⟨v', h1, h2⟩ := h.vec.step (b := b) (op := .popFront true) (o := .val (some x.obj)) (q' := q.map fun x => some x.obj)
    (fun _ => rfl) (by simp [Seq.step]) trivial rfl
  simp only [Vec.step] at h1
  cases hv : p.vec.popFront b (sharedPtr ω) true with
  | error e => rw [hv] at h1; cases h1
  | ok r =>
    obtain ⟨y, v⟩ := r
    rw [hv, res_bind_ok, res_pure] at h1
    obtain ⟨h3, rfl⟩ := Prod.mk.inj (Except.ok.inj h1)
    obtain rfl := Vec.Out.val.inj h3
    exact ⟨v, rfl, h2, fun y hy => h.deadline y (by simp [hy]),
      fun y hy => h.sticky y (by simp [hy]), (List.pairwise_cons.mp h.sorted).2, fun y hy => h.low y (by simp [hy]),
      fun y hy => h.high y (by simp [hy])⟩

/-- What a turn of serving does: it takes the first entry if that is due, and nothing otherwise. -/
theorem Loose.serve (h : Loose d n p q now) (h0 : 0 ≤ now) (h1 : now ≤ 2 ^ 24) :
    (∃ x q' p', q = x :: q' ∧ x.deadline ≤ now ∧ p.serve b now = .ok (some x.obj, p') ∧ Loose d n p' q' now) ∨
      ((∀ x ∈ q.head?, now < x.deadline) ∧ ∃ p', p.serve b now = .ok (none, p') ∧ Loose d n p' q now ∧ p'.vec = p.vec) := by
  have hn := near_small h0 h1
  have h2 : now ≤ maxClock := h1.trans (by norm_num [maxClock])
  cases q with
  | nil =>
    refine .inr ⟨by simp, p, ?_, h, rfl⟩
    have : p.containsFutures = false := by rw [containsFutures, Vec.empty, h.size]; rfl
    rw [Pipe.serve, containsExpired, this]
    rfl
  | cons x q =>
    have hd := h.deadline x (by simp)
    have hs := h.sticky x (by simp)
    have hc : p.containsFutures = true := by rw [containsFutures, Vec.empty, h.size]; simp
    have hsk : (p.heap x.obj).timer.expired = true → (p.heap x.obj).timer.future ≤ near now := by rw [hd, hn]; exact hs
    have hex := expired_spec (p := p) h0 h2 x.obj hsk
    rw [hn, hd] at hex
    by_cases hdue : x.deadline ≤ now
    · have ht := h.touch x.obj (decide (x.deadline ≤ now)) (by rw [hd]; simp)
      rw [hd] at ht
      obtain ⟨p1, hp1⟩ : ∃ p1, p1 = p.store x.obj { p.heap x.obj with timer := ⟨x.deadline, decide (x.deadline ≤ now)⟩ } := ⟨_, rfl⟩
      rw [← hp1] at ht hex
      obtain ⟨v', hv, hr⟩ := ht.pop (b := b)
      have hne : p1.vec.empty = false := by rw [Vec.empty, ht.size]; simp
      have key : ∀ heap1 : ω → Event δ, (heap1 x.obj).timer.future = x.deadline → Loose d n { p1 with vec := v', heap := heap1 } q now →
          ∃ heap2 : ω → Event δ, Pipe.expired { p1 with vec := v', heap := heap1 } (some x.obj) now = .ok (true, { p1 with vec := v', heap := heap2 }) ∧
            (heap2 x.obj).timer.future = x.deadline ∧ Loose d n { p1 with vec := v', heap := heap2 } q now := by
        intro heap1 hf hl
        have he := expired_spec (p := { p1 with vec := v', heap := heap1 }) h0 h2 x.obj (fun _ => by rw [hf, hn]; exact hdue)
        simp only [hf, hn, hdue, decide_true] at he
        have hl' := hl.touch x.obj true (fun _ => by simp only [hf]; exact hdue)
        simp only [hf] at hl'
        exact ⟨_, he, by simp, hl'⟩
      obtain ⟨heap1, k1, k2, k3⟩ := key p1.heap (ht.deadline x (by simp)) hr
      obtain ⟨heap2, m1, m2, m3⟩ := key heap1 k2 k3
      have hserve : p.serve b now = p1.expire b now := by
        rw [Pipe.serve, containsExpired, hc, if_pos rfl, h.peek, res_bind_ok, hex, res_bind_ok]
        simp [hdue]
      cases b with
      | release =>
        refine .inl ⟨x, q, { vec := v', heap := heap1 }, rfl, hdue, ?_, k3⟩
        rw [hserve, expire, hne]
        simp only [Bool.not_false, spnAssert_true, res_bind_ok, Bool.false_eq_true, if_false, hv, Option.isSome_some, assertExpired]
        simp only [k1, res_bind_ok, if_true, res_pure]
      | debug =>
        refine .inl ⟨x, q, { vec := v', heap := heap2 }, rfl, hdue, ?_, m3⟩
        rw [hserve, expire, hne]
        simp only [Bool.not_false, spnAssert_true, res_bind_ok, Bool.false_eq_true, if_false, hv, Option.isSome_some, assertExpired]
        simp only [k1, m1, res_bind_ok, spnAssert_true, if_true, res_pure]
    · refine .inr ⟨by simpa using hdue, p.store x.obj { p.heap x.obj with timer := ⟨x.deadline, false⟩ }, ?_, ?_, rfl⟩
      · rw [Pipe.serve, containsExpired, hc, if_pos rfl, h.peek, res_bind_ok, hex, res_bind_ok]
        simp [hdue]
      · have := h.touch x.obj false (by simp)
        rwa [hd] at this

/-- The loop of `push` with readings that differ: where the new entry goes. -/
theorem Loose.scan {o : ω} {t last dl : Int} {reads : Nat → Int × Int} (h : Loose d n p q t) (h0 : 0 ≤ t) (hl : last ≤ 2 ^ 24)
    (hr : Readings d t last reads) (hf : (p.heap o).timer.future = dl) (hd0 : 0 ≤ dl) (hd : dl ≤ t + 2 ^ 23) :
    ∀ (fuel k : Nat), k ≤ q.length → q.length - k < fuel →
    ∃ at? : Option Nat, p.scan o reads (p.vec.head + k) k fuel = .ok at? ∧
      match at? with
      | none => ∀ y ∈ q.drop k, y.deadline ≤ dl + d
      | some i => k ≤ i ∧ (∃ hi : i < q.length, dl ≤ q[i].deadline) ∧ ∀ y ∈ (q.take i).drop k, y.deadline ≤ dl + d
  | 0, _, _, h => by omega
  | fuel + 1, k, hk, hfu => by
    obtain ⟨pre, post, log, hv, hlen, hn, _⟩ := h.vec
    have hlen : pre.length + q.length + post.length = n := by simpa using hlen
    have hstore : p.vec.store = pre ++ (q.map fun x => some x.obj) ++ post := by rw [hv]; rfl
    have hhead : p.vec.head = pre.length := by rw [hv]; rfl
    have htail : p.vec.tail = pre.length + q.length := by rw [hv]; simp [Vec.mk']
    unfold Pipe.scan
    by_cases hend : k = q.length
    · subst hend
      rw [if_pos (by rw [hhead, htail])]
      exact ⟨none, rfl, by simp⟩
    · have hlt : k < q.length := by omega
      rw [if_neg (by rw [hhead, htail]; omega)]
      have hrd : rd p.vec.store (p.vec.head + k) = .ok (some q[k].obj) := by
        rw [hstore, hhead, Vec.rd_window k (by simpa using hlt)]; simp
      have hm : q[k] ∈ q := List.getElem_mem _
      have hdk := h.deadline _ hm
      have hlk := h.low _ hm
      have hhk := h.high _ hm
      obtain ⟨r1, r2, r3, r4, r5, r6⟩ := hr k
      have big : (2 : Int) ^ 24 ≤ maxClock := by norm_num [maxClock]
      simp only [hrd, res_bind_ok, deref]
      rw [timeFromNow_eq (by omega) (by omega) (by omega) (by simp only [maxDelay]; omega), res_bind_ok,
        timeFromNow_eq (by omega) (by omega) (by omega) (by simp only [maxDelay]; omega), res_bind_ok, hf, hdk,
        near_small (v := (reads k).1) (by omega) (by omega), near_small (v := (reads k).2) (by omega) (by omega),
        msLt_near (by rw [abs_le]; constructor <;> omega), near_eq (v := q[k].deadline - (reads k).2) (by rw [abs_le]; constructor <;> omega),
        res_bind_ok]
      by_cases hc : dl - (reads k).1 < q[k].deadline - (reads k).2
      · refine ⟨some k, by simp [hc], le_rfl, ⟨hlt, by omega⟩, ?_⟩
        intro y hy
        rw [List.drop_eq_nil_of_le (by simp)] at hy
        simp at hy
      · obtain ⟨at?, e1, e2⟩ := Loose.scan h h0 hl hr hf hd0 hd fuel (k + 1) (by omega) (by omega)
        have hq : q[k].deadline ≤ dl + d := by omega
        refine ⟨at?, ?_, ?_⟩
        · simp only [hc, decide_false, Bool.false_eq_true, if_false]
          rw [uadd_lt (by rw [hhead]; omega), Nat.add_assoc, e1]
        · cases at? with
          | none =>
            intro y hy
            rw [List.drop_eq_getElem_cons hlt] at hy
            rcases List.mem_cons.mp hy with rfl | hy
            · exact hq
            · exact e2 y hy
          | some i =>
            obtain ⟨e3, e4, e5⟩ := e2
            refine ⟨by omega, e4, ?_⟩
            intro y hy
            rw [List.drop_eq_getElem_cons (by simp; omega)] at hy
            rcases List.mem_cons.mp hy with rfl | hy
            · simpa using hq
            · exact e5 y hy

/-- Inserting where the loop says keeps the order within `d`. -/
theorem loose_insert {q : List (Item ω)} {x : Item ω} {i : Nat} (hd : 0 ≤ d) (hi : i < q.length)
    (hs : q.Pairwise (fun a c => a.deadline ≤ c.deadline + d)) (h1 : x.deadline ≤ q[i].deadline)
    (h2 : ∀ y ∈ q.take i, y.deadline ≤ x.deadline + d) : (q.take i ++ x :: q.drop i).Pairwise (fun a c => a.deadline ≤ c.deadline + d) := by
  have hs' : (q.take i ++ q.drop i).Pairwise (fun a c => a.deadline ≤ c.deadline + d) := by rwa [List.take_append_drop]
  rw [List.pairwise_append] at hs' ⊢
  obtain ⟨a1, a2, a3⟩ := hs'
  refine ⟨a1, List.pairwise_cons.mpr ⟨?_, a2⟩, ?_⟩
  · intro y hy
    rw [List.drop_eq_getElem_cons hi] at hy a2
    rcases List.mem_cons.mp hy with rfl | hy
    · omega
    · have := (List.pairwise_cons.mp a2).1 y hy
      omega
  · intro y hy z hz
    rcases List.mem_cons.mp hz with rfl | hz
    · exact h2 y hy
    · exact a3 y hy z hz

/-- Pushing a future, with a clock that ticks: `q` holds the entries once the future's timer is set. -/
theorem Loose.enter {o : ω} {t last delay : Int} {reads : Nat → Int × Int} {e : Event δ}
    (he : e = { p.heap o with timeFromNow := delay, timer := ⟨t + delay, false⟩ }) (hrep : Loose d n (p.store o e) q t) (hd : 0 ≤ d)
    (h0 : 0 ≤ t) (htl : t ≤ last) (hl : last ≤ 2 ^ 24) (hr : Readings d t last reads) (hroom : q.length < n) (hp : 0 < delay) (hm : delay ≤ 2 ^ 23)
    (k : Nat) :
    ∃ p' q', (p.store o { p.heap o with timeFromNow := delay }).push b (some o) t reads = .ok p' ∧ Loose d n p' q' last ∧
      q'.Perm (⟨o, t + delay, k⟩ :: q) ∧ ∃ i, q' = q.take i ++ ⟨o, t + delay, k⟩ :: q.drop i := by
  have h2 : t ≤ maxClock := by simp only [maxClock]; omega
  have hsize : p.vec.size = q.length := hrep.size
  have hvec : Vec.Exact (sharedPtr ω) n p.vec (q.map fun x => some x.obj) := hrep.vec
  have hstore : (p.store o { p.heap o with timeFromNow := delay }).store o e = p.store o e := by
    simp only [store]
    congr 1
    funext x
    by_cases hx : x = o <;> simp [hx]
  have hfut : ((p.store o e).heap o).timer.future = t + delay := by rw [store_same, he]
  have hres : ((p.store o { p.heap o with timeFromNow := delay }).heap o).reschedule b 0 t = .ok e := by
    rw [store_same, reschedule_spec (by simp only; omega) (by simp only [maxDelay]; omega) (.inr hp) h0 h2, he]
  obtain ⟨at?, hscan, hat⟩ := hrep.scan h0 hl hr hfut (by omega) (by omega) (q.length + 1) 0 (by omega) (by omega)
  have final : ∀ (v' : Vec (Option ω)) (q' : List (Item ω)), Vec.Exact (sharedPtr ω) n v' (q'.map fun x => some x.obj) →
      q'.Perm (⟨o, t + delay, k⟩ :: q) → q'.Pairwise (fun a c => a.deadline ≤ c.deadline + d) →
      Loose d n { vec := v', heap := (p.store o e).heap } q' last := by
    intro v' q' hv hperm hs
    have hmem : ∀ x ∈ q', x = ⟨o, t + delay, k⟩ ∨ x ∈ q := fun x hx => by simpa using hperm.subset hx
    refine ⟨hv, ?_, ?_, hs, ?_, ?_⟩
    · intro x hx
      rcases hmem x hx with rfl | hx
      · exact hfut
      · exact hrep.deadline x hx
    · intro x hx
      rcases hmem x hx with rfl | hx
      · intro hc
        simp only [store_same, he] at hc
        exact absurd hc (by simp)
      · exact fun hc => (hrep.sticky x hx hc).trans htl
    · intro x hx
      rcases hmem x hx with rfl | hx
      · simp only; omega
      · exact hrep.low x hx
    · intro x hx
      rcases hmem x hx with rfl | hx
      · simp only; omega
      · have := hrep.high x hx
        omega
  have hpush : (p.store o { p.heap o with timeFromNow := delay }).push b (some o) t reads = (p.store o e).place b o at? := by
    unfold Pipe.push
    simp only [store_vec, hsize, hvec.rep.maxSize, hroom, decide_true, spnAssert_true, res_bind_ok, deref, hres, hstore]
    simp only [Nat.add_zero, store_vec] at hscan
    rw [hscan, res_bind_ok]
  rw [hpush]
  cases at? with
  | none =>
    obtain ⟨v', e1, e2⟩ := hvec.step (b := b) (op := .pushBack (some o)) (o := .unit)
      (q' := (q.map fun x => some x.obj) ++ [some o]) (fun _ => rfl) (by simp [Seq.step, hroom]) trivial trivial
    simp only [Vec.step] at e1
    cases hv : p.vec.pushBack b (sharedPtr ω) (some o) with
    | error e => rw [hv] at e1; cases e1
    | ok v =>
      rw [hv, res_bind_ok, res_pure] at e1
      obtain ⟨_, rfl⟩ := Prod.mk.inj (Except.ok.inj e1)
      refine ⟨_, q ++ [⟨o, t + delay, k⟩], by simp only [place, store_vec, hv, res_bind_ok, res_pure],
        final v _ (by simpa using e2) (List.perm_append_singleton _ _) ?_, List.perm_append_singleton _ _, q.length, by simp⟩
      rw [List.pairwise_append]
      refine ⟨hrep.sorted, by simp, ?_⟩
      intro y hy z hz
      obtain rfl : z = ⟨o, t + delay, k⟩ := by simpa using hz
      exact hat y (by simpa using hy)
  | some i =>
    obtain ⟨-, ⟨hi, h3⟩, h4⟩ := hat
    obtain ⟨v', e1, e2⟩ := hvec.step (b := b) (op := .insert i (some o)) (o := .unit)
      (q' := (q.map fun x => some x.obj).take i ++ some o :: (q.map fun x => some x.obj).drop i) (fun _ => rfl)
      (by simp [Seq.step, hroom]) trivial trivial
    simp only [Vec.step] at e1
    cases hv : p.vec.insert b (sharedPtr ω) i (some o) with
    | error e => rw [hv] at e1; cases e1
    | ok v =>
      rw [hv, res_bind_ok, res_pure] at e1
      obtain ⟨_, rfl⟩ := Prod.mk.inj (Except.ok.inj e1)
      have hsz : v.size = q.length + 1 := by
        have := e2.rep.holds.1
        rw [this, List.length_append, List.length_cons]
        simp; omega
      have hperm : (q.take i ++ ⟨o, t + delay, k⟩ :: q.drop i).Perm (⟨o, t + delay, k⟩ :: q) := by
        refine List.perm_middle.trans ?_
        rw [List.take_append_drop]
      refine ⟨_, q.take i ++ ⟨o, t + delay, k⟩ :: q.drop i, ?_, final v _ ?_ hperm (loose_insert hd hi hrep.sorted h3 (by simpa using h4)), hperm, i, rfl⟩
      · simp only [place, store_vec, hv, res_bind_ok, hsize, hsz, decide_true, spnAssert_true, res_pure]
      · rw [List.map_append, List.map_cons, List.map_take, List.map_drop]; exact e2

/-- Pushing a future that is not pending, with a clock that ticks. -/
theorem Loose.push {o : ω} {t last delay : Int} {reads : Nat → Int × Int} (h : Loose d n p q t) (hd : 0 ≤ d) (h0 : 0 ≤ t) (htl : t ≤ last)
    (hl : last ≤ 2 ^ 24) (hr : Readings d t last reads) (hroom : q.length < n) (ho : o ∉ q.map (·.obj)) (hp : 0 < delay) (hm : delay ≤ 2 ^ 23) (k : Nat) :
    ∃ p' q', (p.store o { p.heap o with timeFromNow := delay }).push b (some o) t reads = .ok p' ∧ Loose d n p' q' last ∧
      q'.Perm (⟨o, t + delay, k⟩ :: q) := by
  have hne : ∀ x ∈ q, x.obj ≠ o := fun x hx he => ho (he ▸ List.mem_map_of_mem hx)
  obtain ⟨p', q', a, c, e, -⟩ := Loose.enter (b := b) (o := o) (p := p) (k := k) rfl
    (h.heap _ (fun x hx => by simp only [hne x hx, if_false, true_and]; exact fun he => .inl he)) hd h0 htl hl hr hroom hp hm
  exact ⟨p', q', a, c, e⟩

theorem Ticked.loose {t : Int} {p : Pipe ω δ} (hd : 0 ≤ d) (hn : n < sizeMod) (h : Ticked b n d t p) :
    ∃ q, Loose d n p q t ∧ 0 ≤ t ∧ t ≤ 2 ^ 24 := by
  induction h with
  | create heap =>
    refine ⟨[], ⟨(Pipe.Rep.start n hn heap 0).vec, ?_, ?_, ?_, ?_, ?_⟩, le_rfl, by norm_num⟩ <;> simp
  | wait _ h1 h2 ih =>
    obtain ⟨q, hq, h0, -⟩ := ih
    exact ⟨q, hq.later h1, h0.trans h1, h2⟩
  | @push t last delay p p' o reads pending _ hh hlen ho h1 h2 h3 h4 hr e ih =>
    obtain ⟨q, hq, h0, -⟩ := ih
    have hpend : q.map (·.obj) = pending := by
      have := hq.vec.rep.holds.unique hh
      have h' := congrArg (List.filterMap id) this
      simpa [List.filterMap_map] using h'
    have hlen' : q.length = pending.length := by rw [← hpend]; simp
    obtain ⟨p'', q', e', hq', -⟩ := hq.push (b := b) hd h0 h3 h4 hr (by omega) (by rw [hpend]; exact ho) h1 h2 0
    rw [e'] at e
    cases e
    exact ⟨q', hq', h0.trans h3, h4⟩
  | serve _ e ih =>
    obtain ⟨q, hq, h0, h1⟩ := ih
    rcases hq.serve (b := b) h0 h1 with ⟨x, q', p', rfl, -, e', hq'⟩ | ⟨-, p', e', hq', -⟩
    · rw [e'] at e; cases e; exact ⟨q', hq', h0, h1⟩
    · rw [e'] at e; cases e; exact ⟨q, hq', h0, h1⟩

end Pipe

open Pipe

/-- What a pipeline holds, with the deadlines. -/
def Pipe.HoldsDue (p : Pipe ω δ) (due : List (ω × Int)) : Prop :=
  p.vec.Holds (due.map fun x => some x.1) ∧ ∀ x ∈ due, (p.heap x.1).timer.future = x.2

theorem Pipe.Loose.holds {d : Int} {n : Nat} {p : Pipe ω δ} {q : List (Item ω)} {now : Int} (h : Loose d n p q now) :
    p.HoldsDue (q.map fun x => (x.obj, x.deadline)) := by
  refine ⟨?_, ?_⟩
  · have := h.vec.rep.holds
    rwa [List.map_map]
  · intro x hx
    obtain ⟨y, hy, rfl⟩ := List.mem_map.mp hx
    exact h.deadline y hy

/-- C35 with a ticking clock: if in no round the reading for the other future is more than `d` ms later than the one for the new future,
then over any history no future is queued behind one that is due more than `d` ms later. -/
theorem C35_ticks_partial {n : Nat} {d t : Int} {p : Pipe ω δ} (hn : n < sizeMod) (hd : 0 ≤ d) (h : Ticked b n d t p) :
    ∃ due : List (ω × Int), p.HoldsDue due ∧ due.Pairwise (fun x y => x.2 ≤ y.2 + d) := by
  obtain ⟨q, hq, -⟩ := h.loose hd hn
  exact ⟨_, hq.holds, List.pairwise_map.mpr hq.sorted⟩

/-- C35 with a ticking clock: serving succeeds; it gives a future that is due, or, if it gives none, no pending future has been due for `d`
ms or longer. -/
theorem C35_ticks_late_partial {n : Nat} {d t : Int} {p : Pipe ω δ} (hn : n < sizeMod) (hd : 0 ≤ d) (h : Ticked b n d t p) :
    ∃ (x : Option ω) (p' : Pipe ω δ) (due : List (ω × Int)), p.serve b t = .ok (x, p') ∧ p.HoldsDue due ∧
      (∀ o, x = some o → ∃ dl rest, due = (o, dl) :: rest ∧ dl ≤ t ∧ p'.HoldsDue rest) ∧
      (x = none → p'.HoldsDue due ∧ ∀ y ∈ due, t < y.2 + d) := by
  obtain ⟨q, hq, h0, h1⟩ := h.loose hd hn
  rcases hq.serve (b := b) h0 h1 with ⟨x, q', p', rfl, hx, e, hq'⟩ | ⟨hx, p', e, hq', -⟩
  · refine ⟨some x.obj, p', _, e, hq.holds, ?_, by simp⟩
    rintro o ho
    cases ho
    exact ⟨_, _, rfl, hx, hq'.holds⟩
  · refine ⟨none, p', _, e, hq.holds, by simp, fun _ => ⟨hq'.holds, ?_⟩⟩
    intro y hy
    obtain ⟨z, hz, rfl⟩ := List.mem_map.mp hy
    cases q with
    | nil => simp at hz
    | cons w q =>
      have h2 : t < w.deadline := hx w (by simp)
      rcases List.mem_cons.mp hz with rfl | hz
      · simp only; omega
      · have := (List.pairwise_cons.mp hq.sorted).1 z hz
        simp only; omega

/-- C35 with a ticking clock: pushing a future that is not pending succeeds while there is room, and adds it, due after its delay. -/
theorem C35_ticks_push_partial {n : Nat} {d t last delay : Int} {p : Pipe ω δ} {o : ω} {reads : Nat → Int × Int} {due : List (ω × Int)}
    (hn : n < sizeMod) (hd : 0 ≤ d) (h : Ticked b n d t p) (hh : p.HoldsDue due) (hroom : due.length < n) (ho : o ∉ due.map Prod.fst)
    (h1 : 0 < delay) (h2 : delay ≤ 2 ^ 23) (h3 : t ≤ last) (h4 : last ≤ 2 ^ 24) (hr : Readings d t last reads) :
    ∃ p' due', (p.store o { p.heap o with timeFromNow := delay }).push b (some o) t reads = .ok p' ∧ p'.HoldsDue due' ∧
      due'.Perm ((o, t + delay) :: due) := by
  obtain ⟨q, hq, h0, -⟩ := h.loose hd hn
  have hdue : q.map (fun x => (x.obj, x.deadline)) = due := by
    have e1 : q.map (·.obj) = due.map Prod.fst := by
      have := congrArg (List.filterMap id) (hq.vec.rep.holds.unique hh.1)
      simpa [List.filterMap_map, Function.comp_def] using this
    have key : ∀ (q : List (Item ω)) (due : List (ω × Int)), q.map (·.obj) = due.map Prod.fst → (∀ x ∈ q, (p.heap x.obj).timer.future = x.deadline) →
        (∀ x ∈ due, (p.heap x.1).timer.future = x.2) → q.map (fun x => (x.obj, x.deadline)) = due := by
      intro q
      induction q with
      | nil => intro due e _ _; simpa using e
      | cons x q ih =>
        intro due e g1 g2
        cases due with
        | nil => simp at e
        | cons y due =>
          simp only [List.map_cons, List.cons.injEq] at e
          rw [List.map_cons, ih due e.2 (fun z hz => g1 z (by simp [hz])) (fun z hz => g2 z (by simp [hz]))]
          have a1 := g1 x (by simp)
          have a2 := g2 y (by simp)
          rw [e.1] at a1
          rw [← a1, a2, e.1]
    exact key q due e1 hq.deadline hh.2
  subst hdue
  obtain ⟨p', q', e', hq', hperm⟩ := hq.push (b := b) hd h0 h3 h4 hr (by simpa using hroom) (by simpa [List.map_map, Function.comp_def] using ho) h1 h2 0
  refine ⟨p', _, e', hq'.holds, ?_⟩
  have := hperm.map (fun x : Item ω => (x.obj, x.deadline))
  simpa using this

/-- Push object `o`, due after `delay`, at 0, with a clock that is `d1` ms ahead at the first reading of every round and `d2` at the second. -/
def tickPush (p : Pipe Nat Nat) (o : Nat) (delay d1 d2 : Int) : Res (Pipe Nat Nat) :=
  (p.store o { p.heap o with timeFromNow := delay }).push .debug (some o) 0 (fun _ => (d1, d2))

/-- Non-vacuity: with the second reading 3 ms later, the future due at 8 is queued behind the one due at 10, but before the one due at 13. -/
example : (do
    let p ← tickPush (blankPipe 5) 0 10 0 3
    let p ← tickPush p 1 13 0 3
    let p ← tickPush p 2 8 0 3
    return p.vec.forward 5) = .ok (.ok [some 0, some 2, some 1]) := by decide +kernel

example : ∃ p : Pipe Nat Nat, Ticked b 5 3 3 p ∧ p.HoldsDue [(0, 10)] := by
  have h0 : Ticked b 5 3 0 (blankPipe 5) := .create _
  have hv : (blankPipe 5).vec.Holds (([] : List Nat).map some) := (Pipe.Rep.start 5 (lt_sizeMod (by norm_num)) (fun _ => blankEvent) 0).vec.rep.holds
  have hr : Readings 3 0 3 (fun _ => (0, 3)) := fun _ => by norm_num
  obtain ⟨p, due, e, h1, h2⟩ := C35_ticks_push_partial (b := b) (o := 0) (due := []) (delay := 10) (lt_sizeMod (by norm_num)) (by norm_num) h0 ⟨hv, by simp⟩ (by simp) (by simp) (by norm_num)
    (by norm_num) (by norm_num) (by norm_num) hr
  obtain rfl := List.perm_singleton.mp h2
  exact ⟨p, .push (pending := []) h0 hv (by simp) (by simp) (by norm_num) (by norm_num) (by norm_num) (by norm_num) hr e, h1⟩

/-- If the clock is read for the other future first, as a compiler may do, and ticks 2 ms before the second reading of each round, there is no bound:
each new future is queued before the one that is due 1 ms earlier. -/
theorem C35_ticks_order_counterexample : (do
    let p ← tickPush (blankPipe 5) 0 10 2 0
    let p ← tickPush p 1 11 2 0
    let p ← tickPush p 2 12 2 0
    let p ← tickPush p 3 13 2 0
    let p ← tickPush p 4 14 2 0
    return p.vec.forward 6) = .ok (.ok [some 4, some 3, some 2, some 1, some 0]) := by decide +kernel

end Spine
