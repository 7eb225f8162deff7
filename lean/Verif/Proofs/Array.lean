import Verif.Model.Array
/-! # Lemmas about the array model -/

namespace Spine

variable {α : Type}

@[simp] theorem upd_same {β : Type} (f : Nat → β) (i : Nat) (v : β) : upd f i v i = v := by simp [upd]
theorem upd_ne {β : Type} (f : Nat → β) {i j : Nat} (v : β) (h : j ≠ i) : upd f i v j = f j := by simp [upd, h]
theorem upd_apply {β : Type} (f : Nat → β) (i j : Nat) (v : β) : upd f i v j = if j = i then v else f j := rfl

namespace World

/-- Two worlds that differ in the contents of memory only. -/
structure SameShape (w w' : World α) : Prop where
  objs : w'.objs = w.objs
  next : w'.next = w.next
  heap : ∀ i, (w'.heap i).map List.length = (w.heap i).map List.length
  ext : ∀ i, (w'.ext i).length = (w.ext i).length

theorem SameShape.refl (w : World α) : SameShape w w := ⟨rfl, rfl, fun _ => rfl, fun _ => rfl⟩

theorem SameShape.trans {w w' w'' : World α} (h : SameShape w w') (h' : SameShape w' w'') : SameShape w w'' :=
  ⟨h'.objs.trans h.objs, h'.next.trans h.next, fun i => (h'.heap i).trans (h.heap i),
    fun i => (h'.ext i).trans (h.ext i)⟩

theorem SameShape.live {w w' : World α} (h : SameShape w w') (i : Nat) : w'.heap i = none ↔ w.heap i = none := by
  have := h.heap i
  cases h1 : w'.heap i <;> cases h2 : w.heap i <;> simp_all

theorem SameShape.block {w w' : World α} (h : SameShape w w') {p : Ptr} {m : List α} (hb : w.block p = .ok m) :
    ∃ m', w'.block p = .ok m' ∧ m'.length = m.length := by
  cases p with
  | null => simp [World.block] at hb
  | heap i =>
    have := h.heap i
    simp only [World.block] at hb ⊢
    cases h1 : w'.heap i <;> cases h2 : w.heap i <;> simp_all
  | ext i =>
    simp only [World.block, Except.ok.injEq] at hb ⊢
    exact ⟨_, rfl, by rw [h.ext i, hb]⟩

theorem save_shape {w w' : World α} {p : Ptr} {i : Nat} {x : α} (h : w.save p i x = .ok w') : SameShape w w' := by
  unfold save at h
  cases hb : w.block p with
  | error e => rw [hb] at h; cases h
  | ok m =>
    rw [hb, res_bind_ok] at h
    unfold wr at h
    split at h
    · rw [res_bind_ok, res_pure] at h
      obtain rfl := Except.ok.inj h
      cases p with
      | null => exact SameShape.refl w
      | heap j =>
        refine ⟨rfl, rfl, fun k => ?_, fun _ => rfl⟩
        simp only [setBlock, upd_apply]
        split
        · next hk =>
          rw [hk]
          simp only [World.block] at hb
          cases h2 : w.heap j <;> simp_all
        · rfl
      | ext j =>
        refine ⟨rfl, rfl, fun _ => rfl, fun k => ?_⟩
        simp only [setBlock, upd_apply]
        split
        · next hk =>
          rw [hk]
          simp only [World.block, Except.ok.injEq] at hb
          simp [hb]
        · rfl
    · cases h

theorem save_ok {w : World α} {p : Ptr} {m : List α} (hb : w.block p = .ok m) {i : Nat} (hi : i < m.length) (x : α) :
    ∃ w', w.save p i x = .ok w' := by
  refine ⟨w.setBlock p (m.set i x), ?_⟩
  · simp only [save, hb, res_bind_ok, wr, if_pos hi, res_pure]

theorem foldSave_shape {β : Type} (p : Ptr) (f : β → Nat × α) (l : List β) (w w' : World α)
    (h : l.foldlM (fun w y => w.save p (f y).1 (f y).2) w = .ok w') : SameShape w w' := by
  induction l generalizing w with
  | nil => simp only [List.foldlM_nil, res_pure] at h; obtain rfl := Except.ok.inj h; exact .refl _
  | cons y l ih =>
    rw [List.foldlM_cons] at h
    cases hs : w.save p (f y).1 (f y).2 with
    | error e => rw [hs] at h; cases h
    | ok w1 => rw [hs, res_bind_ok] at h; exact (save_shape hs).trans (ih w1 h)

theorem foldSave_ok {β : Type} (p : Ptr) (f : β → Nat × α) (l : List β) (w : World α) {m : List α}
    (hb : w.block p = .ok m) (hl : ∀ y ∈ l, (f y).1 < m.length) :
    ∃ w', l.foldlM (fun w y => w.save p (f y).1 (f y).2) w = .ok w' := by
  induction l generalizing w m with
  | nil => exact ⟨w, rfl⟩
  | cons y l ih =>
    obtain ⟨w1, h1⟩ := save_ok hb (hl y (by simp)) (f y).2
    obtain ⟨m1, h2, h3⟩ := (save_shape h1).block hb
    obtain ⟨w2, h4⟩ := ih w1 h2 (fun z hz => by rw [h3]; exact hl z (by simp [hz]))
    exact ⟨w2, by rw [List.foldlM_cons, h1, res_bind_ok, h4]⟩

theorem fill_shape {w w' : World α} {h : Nat} {x : α} (hf : w.fill h x = .ok w') : SameShape w w' := by
  unfold fill at hf
  cases ha : w.obj h with
  | error e => rw [ha] at hf; cases hf
  | ok a =>
    rw [ha, res_bind_ok] at hf
    exact foldSave_shape a.store (fun i => (i, x)) _ _ _ hf

theorem ofListTemp_spec (zero : α) (w : World α) (xs : List α) :
    ∃ w', w.ofListTemp zero xs = .ok (⟨.heap w.next, xs.length, true⟩, w') ∧ SameShape (w.malloc zero xs.length).2 w' := by
  have hb : (w.malloc zero xs.length).2.block (.heap w.next) = .ok (List.replicate xs.length zero) := by
    simp [malloc, World.block]
  obtain ⟨w', h⟩ := foldSave_ok (.heap w.next) (fun y : α × Nat => (y.2, y.1)) xs.zipIdx _ hb
    (fun y hy => by
      have := List.snd_lt_of_mem_zipIdx hy
      simpa using this)
  refine ⟨w', ?_, foldSave_shape _ (fun y : α × Nat => (y.2, y.1)) _ _ _ h⟩
  simp only [ofListTemp]
  change (List.foldlM (fun (u : World α) (y : α × Nat) => u.save (.heap w.next) y.2 y.1) (w.malloc zero xs.length).2 xs.zipIdx >>= _) = _
  rw [h]; rfl

theorem createFilled_spec (zero : α) (w : World α) (h n : Nat) (x : α) :
    ∃ w', w.createFilled zero h n x = .ok w' ∧ SameShape (w.create zero h n) w' := by
  have hb : (w.create zero h n).block (.heap w.next) = .ok (List.replicate n zero) := by
    simp [create, malloc, put, World.block]
  obtain ⟨w', h1⟩ := foldSave_ok (.heap w.next) (fun i : Nat => (i, x)) (List.range n) _ hb (by simp)
  refine ⟨w', ?_, foldSave_shape (.heap w.next) (fun i : Nat => (i, x)) _ _ _ h1⟩
  simp only [createFilled, fill]
  have : (w.create zero h n).obj h = .ok ⟨.heap w.next, n, true⟩ := by simp [obj, create, malloc, put]
  rw [this, res_bind_ok]; exact h1

/-- `h` is responsible for freeing block `i`. -/
def Owns (w : World α) (h i : Nat) : Prop :=
  ∃ a, w.objs h = some a ∧ a.internal = true ∧ a.store = .heap i

/-- `h` would free memory of the caller. -/
def OwnsExt (w : World α) (h i : Nat) : Prop :=
  ∃ a, w.objs h = some a ∧ a.internal = true ∧ a.store = .ext i

/-- Who owns what. -/
structure Inv (w : World α) : Prop where
  /-- what an owner points to is alive -/
  live : ∀ h i, w.Owns h i → w.heap i ≠ none
  /-- nobody else owns it -/
  sole : ∀ h h' i, w.Owns h i → w.Owns h' i → h = h'
  /-- nobody owns memory of the caller -/
  ext : ∀ h i, ¬ w.OwnsExt h i
  /-- what was not handed out is not in use -/
  fresh : ∀ i, w.heap i ≠ none → i < w.next

/-- Everything allocated has an owner. -/
def NoLeak (w : World α) : Prop := ∀ i, w.heap i ≠ none → ∃ h, w.Owns h i

theorem SameShape.owns {w w' : World α} (hs : SameShape w w') (h i : Nat) : w'.Owns h i ↔ w.Owns h i := by
  simp only [Owns, hs.objs]

theorem Inv.shape {w w' : World α} (hi : Inv w) (hs : SameShape w w') : Inv w' := by
  refine ⟨?_, ?_, ?_, ?_⟩
  · intro h i; rw [hs.owns, Ne, hs.live i]; exact hi.live h i
  · intro h h' i; rw [hs.owns, hs.owns]; exact hi.sole h h' i
  · intro h i; simp only [OwnsExt, hs.objs]; exact hi.ext h i
  · intro i; rw [Ne, hs.live i, hs.next]; exact hi.fresh i

theorem NoLeak.shape {w w' : World α} (hi : NoLeak w) (hs : SameShape w w') : NoLeak w' := by
  intro i hl; rw [Ne, hs.live i] at hl
  obtain ⟨h, ho⟩ := hi i hl
  exact ⟨h, (hs.owns h i).mpr ho⟩

theorem Inv.start (ext : Nat → List α) : Inv (start ext) :=
  ⟨by simp [World.start, Owns], by simp [World.start, Owns], by simp [World.start, OwnsExt], by simp [World.start]⟩

theorem NoLeak.start (ext : Nat → List α) : NoLeak (World.start ext) := by simp [NoLeak, World.start]

theorem obj_ok {w : World α} {h : Nat} {a : Arr} : w.obj h = .ok a ↔ w.objs h = some a := by
  unfold obj; cases w.objs h <;> simp

theorem owns_put {w : World α} {h : Nat} {a : Arr} {k i : Nat} :
    (w.put h a).Owns k i ↔ if k = h then a.internal = true ∧ a.store = .heap i else w.Owns k i := by
  simp only [Owns, put, upd_apply]; split <;> simp

theorem ownsExt_put {w : World α} {h : Nat} {a : Arr} {k i : Nat} :
    (w.put h a).OwnsExt k i ↔ if k = h then a.internal = true ∧ a.store = .ext i else w.OwnsExt k i := by
  simp only [OwnsExt, put, upd_apply]; split <;> simp

/-- What an owner's pointer can be freed for, and the result. -/
def freed (w : World α) (a : Arr) : World α :=
  { w with heap := fun j => if a.internal = true ∧ a.store = .heap j then none else w.heap j }

/-- An owner's pointer can be freed. -/
theorem Inv.free_ok {w : World α} (hi : Inv w) {h : Nat} {a : Arr} (ha : w.objs h = some a) :
    w.release a = .ok (w.freed a) := by
  unfold release
  by_cases hint : a.internal = true
  · rw [if_pos hint]
    cases hs : a.store with
    | null => simp [free, freed, hs]
    | ext i => exact absurd ⟨a, ha, hint, hs⟩ (hi.ext h i)
    | heap i =>
      have hl := hi.live h i ⟨a, ha, hint, hs⟩
      cases hh : w.heap i with
      | none => exact absurd hh hl
      | some m =>
        simp only [free, hh, freed, hs, hint, true_and, Ptr.heap.injEq]
        congr 2
        funext j
        simp only [upd_apply, eq_comm (a := j)]
  · rw [if_neg hint]
    simp [freed, hint]

/-- What a well-formed C++ program does: it constructs each object once, and uses objects between their
construction and their destruction only. -/
def Legal (w : World α) : Op α → Prop
  | .create h _ | .createFilled h _ _ | .ofList h _ | .wrap h _ => w.objs h = none
  | .copy h o | .move h o => w.objs h = none ∧ w.objs o ≠ none
  | .copyAssign h o | .moveAssign h o | .swap h o => w.objs h ≠ none ∧ w.objs o ≠ none
  | .listAssign h _ | .destroy h | .set h _ _ | .fill h _ => w.objs h ≠ none

/-- A swap is between two arrays that both own their memory, or both do not. -/
def Matched (w : World α) : Op α → Prop
  | .swap h o => ∀ a a', w.objs h = some a → w.objs o = some a' → a.internal = a'.internal
  | _ => True

/-- Operations that construct, assign, swap or destroy, i.e. all but element access. -/
def Op.Lifecycle : Op α → Prop
  | .set _ _ _ | .fill _ _ => False
  | _ => True

/-- An assignment of a whole array goes to an array that owns nothing. -/
def Keeps (w : World α) : Op α → Prop
  | .copyAssign h o | .moveAssign h o => h = o ∨ ∀ i, ¬ w.Owns h i
  | _ => True

theorem Inv.create {w : World α} (hi : Inv w) (zero : α) {h : Nat} (n : Nat) :
    Inv (w.create zero h n) := by
  have hf : ∀ k, ¬ w.Owns k w.next := fun k ho => by
    have := hi.fresh _ (hi.live k _ ho); omega
  refine ⟨fun k i => ?_, fun k k' i => ?_, fun k i => ?_, fun i => ?_⟩
  · simp only [World.create, malloc, owns_put]
    split
    · intro ⟨_, hk⟩; cases hk; simp [put]
    · intro ho
      have := hi.live k i ho
      simp only [put, upd_apply]; split <;> simp_all
  · simp only [World.create, malloc, owns_put]
    intro h1 h2
    split at h1 <;> split at h2
    · simp_all
    · obtain ⟨_, hk⟩ := h1; cases hk; exact absurd h2 (hf _)
    · obtain ⟨_, hk⟩ := h2; cases hk; exact absurd h1 (hf _)
    · exact hi.sole k k' i h1 h2
  · simp only [World.create, malloc, ownsExt_put]
    split
    · simp
    · exact hi.ext k i
  · simp only [World.create, malloc, put, upd_apply]
    split
    · subst_vars; simp
    · intro hh; have := hi.fresh i hh; omega

theorem NoLeak.create {w : World α} (hi : NoLeak w) (hv : Inv w) (zero : α) {h : Nat} (hh : ∀ i, ¬ w.Owns h i) (n : Nat) :
    NoLeak (w.create zero h n) := by
  intro i
  simp only [World.create, malloc, owns_put]
  simp only [put, upd_apply]
  split
  · next hi' => intro _; exact ⟨h, by simp [hi']⟩
  · intro hl
    obtain ⟨k, ho⟩ := hi i hl
    refine ⟨k, ?_⟩
    rw [if_neg]
    · exact ho
    · rintro rfl; exact hh i ho

/-- Changing the objects only, so that every block and every piece of caller's memory has at most the owners it had before. -/
theorem Inv.rename {w w' : World α} (hi : Inv w) (hh : w'.heap = w.heap) (hn : w'.next = w.next) (f : Nat → Nat → Nat)
    (h1 : ∀ k i, w'.Owns k i → w.Owns (f i k) i) (h2 : ∀ k k' i, w'.Owns k i → w'.Owns k' i → f i k = f i k' → k = k')
    (h3 : ∀ k i, ¬ w'.OwnsExt k i) : Inv w' := by
  refine ⟨fun k i ho => ?_, fun k k' i ho ho' => ?_, h3, fun i => ?_⟩
  · rw [hh]; exact hi.live _ i (h1 k i ho)
  · exact h2 k k' i ho ho' (hi.sole _ _ i (h1 k i ho) (h1 k' i ho'))
  · rw [hh, hn]; exact hi.fresh i

/-- Forgetting an object. -/
def drop (w : World α) (h : Nat) : World α := { w with objs := upd w.objs h none }

theorem owns_drop {w : World α} {h k i : Nat} : (w.drop h).Owns k i ↔ k ≠ h ∧ w.Owns k i := by
  simp only [Owns, drop, upd_apply]; split <;> simp_all

theorem ownsExt_drop {w : World α} {h k i : Nat} : (w.drop h).OwnsExt k i ↔ k ≠ h ∧ w.OwnsExt k i := by
  simp only [OwnsExt, drop, upd_apply]; split <;> simp_all

/-- Freeing what an object owns and forgetting the object. -/
theorem Inv.destroyed {w : World α} (hi : Inv w) {h : Nat} {a : Arr} (ha : w.objs h = some a) :
    Inv ((w.freed a).drop h) := by
  have ho : ∀ k i, (w.freed a).Owns k i ↔ w.Owns k i := fun k i => Iff.rfl
  have he : ∀ k i, (w.freed a).OwnsExt k i ↔ w.OwnsExt k i := fun k i => Iff.rfl
  refine ⟨fun k i => ?_, fun k k' i => ?_, fun k i => ?_, fun i => ?_⟩
  · rw [owns_drop, ho]
    rintro ⟨hk, h1⟩
    simp only [drop, freed]
    split
    · next hc => exact absurd (hi.sole k h i h1 ⟨a, ha, hc⟩) hk
    · exact hi.live k i h1
  · rw [owns_drop, owns_drop, ho, ho]
    exact fun h1 h2 => hi.sole k k' i h1.2 h2.2
  · rw [ownsExt_drop, he]; exact fun h1 => hi.ext k i h1.2
  · simp only [drop, freed]; split
    · simp
    · exact hi.fresh i

theorem NoLeak.destroyed {w : World α} (hi : NoLeak w) {h : Nat} {a : Arr} (ha : w.objs h = some a) :
    NoLeak ((w.freed a).drop h) := by
  intro i
  simp only [drop, freed]
  split
  · simp
  · next hc =>
    intro hl
    obtain ⟨k, h1⟩ := hi i hl
    refine ⟨k, owns_drop.mpr ⟨?_, h1⟩⟩
    rintro rfl
    obtain ⟨a', h2, h3, h4⟩ := h1
    rw [ha] at h2; cases h2; exact hc ⟨h3, h4⟩

theorem create_drop (zero : α) (w : World α) (h n : Nat) :
    (w.drop h).create zero h n = w.create zero h n := by
  simp only [World.create, malloc, put, drop]
  congr 1
  funext j; simp only [upd_apply]; split <;> rfl

theorem ofListTemp_put {zero : α} {w : World α} {xs : List α} {h : Nat} {w' : World α}
    (hs : SameShape (w.malloc zero xs.length).2 w') :
    SameShape (w.create zero h xs.length) (w'.put h ⟨.heap w.next, xs.length, true⟩) :=
  ⟨by simp only [World.create, put, malloc, hs.objs], hs.next, hs.heap, hs.ext⟩

/-- Every lifecycle operation of a well-formed program succeeds, and keeps the books. -/
theorem step_lifecycle (zero : α) {w : World α} (hi : Inv w) (op : Op α) (hl : w.Legal op) (hm : w.Matched op)
    (hop : op.Lifecycle) : ∃ w', w.step zero op = .ok w' ∧ Inv w' ∧ (NoLeak w → w.Keeps op → NoLeak w') := by
  have own_none : ∀ {h i}, w.objs h = none → ¬ w.Owns h i := by
    intro h i hn ⟨a, ha, _⟩; rw [hn] at ha; cases ha
  cases op with
  | create h n => exact ⟨_, rfl, hi.create zero n, fun hk _ => hk.create hi zero (fun i => own_none hl) n⟩
  | createFilled h n x =>
    obtain ⟨w', h1, h2⟩ := createFilled_spec zero w h n x
    exact ⟨w', h1, (hi.create zero n).shape h2, fun hk _ => (hk.create hi zero (fun i => own_none hl) n).shape h2⟩
  | ofList h xs =>
    obtain ⟨w', h1, h2⟩ := ofListTemp_spec zero w xs
    refine ⟨w'.put h ⟨.heap w.next, xs.length, true⟩, by simp only [step, ofList, h1, res_bind_ok, res_pure], ?_, ?_⟩
    · exact (hi.create zero _).shape (ofListTemp_put h2)
    · exact fun hk _ => (hk.create hi zero (fun i => own_none hl) _).shape (ofListTemp_put h2)
  | wrap h x =>
    refine ⟨_, rfl, hi.rename rfl rfl (fun _ k => k) ?_ (fun _ _ _ _ _ h => h) ?_, ?_⟩
    · intro k i; simp only [wrap, owns_put]; split <;> simp
    · intro k i; simp only [wrap, ownsExt_put]; split
      · simp
      · exact hi.ext k i
    · intro hk _ i hh
      obtain ⟨k, ho⟩ := hk i hh
      refine ⟨k, ?_⟩
      simp only [wrap, owns_put]
      rw [if_neg]; · exact ho
      · rintro rfl; exact own_none hl ho
  | copy h o =>
    obtain ⟨hn, ho⟩ := hl
    obtain ⟨a, ha⟩ := Option.ne_none_iff_exists'.mp ho
    refine ⟨w.put h ⟨a.store, a.maxSize, false⟩, by simp only [step, copy, obj_ok.mpr ha, res_bind_ok, res_pure], hi.rename rfl rfl (fun _ k => k) ?_ (fun _ _ _ _ _ h => h) ?_, ?_⟩
    · intro k i; simp only [owns_put]; split <;> simp
    · intro k i; simp only [ownsExt_put]; split
      · simp
      · exact hi.ext k i
    · intro hk _ i hh
      obtain ⟨k, ho⟩ := hk i hh
      refine ⟨k, ?_⟩
      simp only [owns_put]
      rw [if_neg]; · exact ho
      · rintro rfl; exact own_none hn ho
  | copyAssign h o =>
    obtain ⟨hn, ho⟩ := hl
    obtain ⟨a', ha'⟩ := Option.ne_none_iff_exists'.mp hn
    obtain ⟨a, ha⟩ := Option.ne_none_iff_exists'.mp ho
    by_cases hho : h = o
    · exact ⟨w, by simp only [step, copyAssign, obj_ok.mpr ha, obj_ok.mpr ha', res_bind_ok, res_pure, if_pos hho], hi, fun hk _ => hk⟩
    refine ⟨w.put h ⟨a.store, a.maxSize, false⟩, by simp only [step, copyAssign, obj_ok.mpr ha, obj_ok.mpr ha', res_bind_ok, res_pure, if_neg hho], hi.rename rfl rfl (fun _ k => k) ?_ (fun _ _ _ _ _ h => h) ?_, ?_⟩
    · intro k i; simp only [owns_put]; split <;> simp
    · intro k i; simp only [ownsExt_put]; split
      · simp
      · exact hi.ext k i
    · intro hk hkeep i hh
      obtain ⟨k, ho⟩ := hk i hh
      refine ⟨k, ?_⟩
      simp only [owns_put]
      rw [if_neg]; · exact ho
      · rintro rfl; rcases hkeep with hc | hc
        · exact hho hc
        · exact hc i ho
  | move h o =>
    obtain ⟨hn, ho⟩ := hl
    obtain ⟨a, ha⟩ := Option.ne_none_iff_exists'.mp ho
    have hho : h ≠ o := by rintro rfl; exact ho hn
    refine ⟨(w.put h a).put o { a with store := .null }, by simp only [step, move, obj_ok.mpr ha, res_bind_ok, res_pure], hi.rename rfl rfl (fun _ k => if k = h then o else k) ?_ ?_ ?_, ?_⟩
    · intro k i; simp only [owns_put]
      split
      · simp
      · split
        · exact fun hc => ⟨a, ha, hc⟩
        · exact id
    · intro k k' i; simp only [owns_put]
      by_cases h1 : k = o <;> by_cases h2 : k' = o <;> by_cases h3 : k = h <;> by_cases h4 : k' = h <;> simp_all
      all_goals (intros; first | omega | (exfalso; simp_all))
    · intro k i; simp only [ownsExt_put]
      split
      · simp
      · split
        · exact fun hc => hi.ext o i ⟨a, ha, hc⟩
        · exact hi.ext k i
    · intro hk _ i hh
      obtain ⟨k, h1⟩ := hk i hh
      by_cases hko : k = o
      · subst hko
        obtain ⟨b, hb, h2⟩ := h1
        rw [ha] at hb; cases hb
        refine ⟨h, ?_⟩
        simp only [owns_put, if_neg hho, if_true]; exact h2
      · refine ⟨k, ?_⟩
        have : k ≠ h := by rintro rfl; exact own_none hn h1
        simp only [owns_put, if_neg hko, if_neg this]; exact h1
  | moveAssign h o =>
    obtain ⟨hn, ho⟩ := hl
    obtain ⟨a', ha'⟩ := Option.ne_none_iff_exists'.mp hn
    obtain ⟨a, ha⟩ := Option.ne_none_iff_exists'.mp ho
    by_cases hho : h = o
    · exact ⟨w, by simp only [step, moveAssign, obj_ok.mpr ha, obj_ok.mpr ha', res_bind_ok, res_pure, if_pos hho], hi, fun hk _ => hk⟩
    refine ⟨(w.put h a).put o { a with store := .null }, by simp only [step, moveAssign, obj_ok.mpr ha, obj_ok.mpr ha', res_bind_ok, res_pure, if_neg hho], hi.rename rfl rfl (fun _ k => if k = h then o else k) ?_ ?_ ?_, ?_⟩
    · intro k i; simp only [owns_put]
      split
      · simp
      · split
        · exact fun hc => ⟨a, ha, hc⟩
        · exact id
    · intro k k' i; simp only [owns_put]
      by_cases h1 : k = o <;> by_cases h2 : k' = o <;> by_cases h3 : k = h <;> by_cases h4 : k' = h <;> simp_all
      all_goals (intros; first | omega | (exfalso; simp_all))
    · intro k i; simp only [ownsExt_put]
      split
      · simp
      · split
        · exact fun hc => hi.ext o i ⟨a, ha, hc⟩
        · exact hi.ext k i
    · intro hk hkeep i hh
      obtain ⟨k, h1⟩ := hk i hh
      by_cases hko : k = o
      · subst hko
        obtain ⟨b, hb, h2⟩ := h1
        rw [ha] at hb; cases hb
        refine ⟨h, ?_⟩
        simp only [owns_put, if_neg hho, if_true]; exact h2
      · refine ⟨k, ?_⟩
        have : k ≠ h := by
          rintro rfl; rcases hkeep with hc | hc
          · exact hho hc
          · exact hc i h1
        simp only [owns_put, if_neg hko, if_neg this]; exact h1
  | listAssign h xs =>
    obtain ⟨a, ha⟩ := Option.ne_none_iff_exists'.mp hl
    obtain ⟨w', h1, h2⟩ := ofListTemp_spec zero (w.freed a) xs
    have hd := (hi.destroyed ha).create zero (h := h) xs.length
    rw [create_drop] at hd
    refine ⟨w'.put h ⟨.heap w.next, xs.length, true⟩, by
      simp only [step, listAssign, obj_ok.mpr ha, res_bind_ok, hi.free_ok ha, h1]; rfl, ?_, ?_⟩
    · exact hd.shape (ofListTemp_put h2)
    · intro hk _
      have hd' := (hk.destroyed ha).create (hi.destroyed ha) zero (h := h) (fun i hc => (owns_drop.mp hc).1 rfl) xs.length
      rw [create_drop] at hd'
      exact hd'.shape (ofListTemp_put h2)
  | swap h o =>
    obtain ⟨hn, ho⟩ := hl
    obtain ⟨a, ha⟩ := Option.ne_none_iff_exists'.mp hn
    obtain ⟨a', ha'⟩ := Option.ne_none_iff_exists'.mp ho
    have hint := hm a a' ha ha'
    by_cases hho : h = o
    · subst hho
      rw [ha] at ha'; cases ha'
      refine ⟨w, ?_, hi, fun hk _ => hk⟩
      have : (w.put h a) = w := by
        simp only [put]; congr 1; funext j; simp only [upd_apply]; split
        · next hj => rw [hj, ha]
        · rfl
      simp only [step, swap, obj_ok.mpr ha, res_bind_ok, res_pure]
      simp only [this, obj_ok.mpr ha, res_bind_ok]
    · have h2 : (w.put h { a with store := a'.store }).obj o = .ok a' := by
        rw [obj_ok]; simp only [put, upd_ne _ _ (Ne.symm hho)]; exact ha'
      refine ⟨(w.put h { a with store := a'.store }).put o { a' with store := a.store }, by simp only [step, swap, obj_ok.mpr ha, obj_ok.mpr ha', res_bind_ok, res_pure, h2],
        hi.rename rfl rfl (fun _ k => if k = h then o else if k = o then h else k) ?_ ?_ ?_, ?_⟩
      · intro k i; simp only [owns_put]
        by_cases hko : k = o
        · subst hko
          simp only [if_true, if_neg (Ne.symm hho)]
          exact fun hc => ⟨a, ha, by rw [hint]; exact hc.1, hc.2⟩
        · simp only [if_neg hko]
          split
          · exact fun hc => ⟨a', ha', by rw [← hint]; exact hc.1, hc.2⟩
          · exact id
      · intro k k' i _ _
        by_cases h1 : k = h <;> by_cases h2 : k' = h <;> by_cases h3 : k = o <;> by_cases h4 : k' = o <;> simp_all
        all_goals (intro hc; first | exact hc | exact absurd hc.symm ‹_› | exact absurd hc ‹_›)
      · intro k i; simp only [ownsExt_put]
        by_cases hko : k = o
        · subst hko
          simp only [if_true]
          exact fun hc => hi.ext h i ⟨a, ha, by rw [hint]; exact hc.1, hc.2⟩
        · simp only [if_neg hko]
          split
          · exact fun hc => hi.ext o i ⟨a', ha', by rw [← hint]; exact hc.1, hc.2⟩
          · exact hi.ext k i
      · intro hk _ i hh
        obtain ⟨k, h1⟩ := hk i hh
        by_cases hko : k = o
        · subst hko
          obtain ⟨b, hb, h3, h4⟩ := h1
          rw [ha'] at hb; cases hb
          exact ⟨h, by simp only [owns_put, if_neg hho, if_true]; exact ⟨by rw [hint]; exact h3, h4⟩⟩
        · by_cases hkh : k = h
          · subst hkh
            obtain ⟨b, hb, h3, h4⟩ := h1
            rw [ha] at hb; cases hb
            exact ⟨o, by simp only [owns_put, if_true]; exact ⟨by rw [← hint]; exact h3, h4⟩⟩
          · exact ⟨k, by simp only [owns_put, if_neg hko, if_neg hkh]; exact h1⟩
  | destroy h =>
    obtain ⟨a, ha⟩ := Option.ne_none_iff_exists'.mp hl
    refine ⟨(w.freed a).drop h, ?_, hi.destroyed ha, fun hk _ => hk.destroyed ha⟩
    simp only [step, destroy, obj_ok.mpr ha, res_bind_ok, hi.free_ok ha, res_pure]; rfl
  | set h i x => exact absurd hop id
  | fill h x => exact absurd hop id

/-- Whatever an operation of a well-formed program does, if it has no undefined behaviour it keeps the books. -/
theorem step_any (zero : α) {w w' : World α} (hi : Inv w) (op : Op α) (hl : w.Legal op) (hm : w.Matched op)
    (hs : w.step zero op = .ok w') : Inv w' ∧ (NoLeak w → w.Keeps op → NoLeak w') := by
  by_cases hop : op.Lifecycle
  · obtain ⟨w1, h1, h2, h3⟩ := step_lifecycle zero hi op hl hm hop
    rw [h1] at hs; cases hs; exact ⟨h2, h3⟩
  · cases op with
    | set h i x =>
      simp only [step, set] at hs
      cases ha : w.obj h with
      | error e => rw [ha] at hs; cases hs
      | ok a =>
        rw [ha, res_bind_ok] at hs
        exact ⟨hi.shape (save_shape hs), fun hk _ => hk.shape (save_shape hs)⟩
    | fill h x =>
      have := fill_shape hs
      exact ⟨hi.shape this, fun hk _ => hk.shape this⟩
    | _ => exact absurd trivial hop

end World
end Spine
