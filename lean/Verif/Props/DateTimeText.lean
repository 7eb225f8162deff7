import Verif.Props.DateTime
import Verif.Spec.SscanfText
/-!
# C139: which texts a `DateTime` can be made of, and what they mean
-/

namespace Spine

open DateTime

namespace Text

/-! ## Characters -/

theorem char_cases {c : Char} {lo hi : Nat} (h1 : lo ≤ c.toNat) (h2 : c.toNat ≤ hi) : ∃ n, lo ≤ n ∧ n ≤ hi ∧ c = Char.ofNat n :=
  ⟨c.toNat, h1, h2, (Char.ofNat_toNat c).symm⟩

theorem digit_iff {c : Char} {d : Nat} : digit c = some d ↔ Spells d c := by
  constructor
  · intro h
    unfold digit at h
    split at h
    · rename_i hc
      obtain ⟨n, h1, h2, rfl⟩ := char_cases (c := c) (lo := 48) (hi := 57) hc.1 hc.2
      interval_cases n <;> cases h <;> exact .inl rfl
    · split at h
      · rename_i hc
        obtain ⟨n, h1, h2, rfl⟩ := char_cases (c := c) (lo := 97) (hi := 102) hc.1 hc.2
        interval_cases n <;> cases h <;> exact .inl rfl
      · split at h
        · rename_i hc
          obtain ⟨n, h1, h2, rfl⟩ := char_cases (c := c) (lo := 65) (hi := 70) hc.1 hc.2
          interval_cases n <;> cases h <;> exact .inr rfl
        · cases h
  · intro h
    have hd : d < 16 := by
      rcases h with h | h
      · exact (List.getElem?_eq_some_iff.mp h).1
      · exact (List.getElem?_eq_some_iff.mp h).1
    rcases h with h | h <;> interval_cases d <;> cases h <;> decide

theorem isSpace_iff {c : Char} : isSpace c = true ↔ c ∈ blanks := by
  constructor
  · intro h
    unfold isSpace at h
    simp only [Bool.or_eq_true, decide_eq_true_eq, Bool.and_eq_true] at h
    rcases h with rfl | ⟨h1, h2⟩
    · decide
    · obtain ⟨n, h1, h2, rfl⟩ := char_cases h1 h2
      interval_cases n <;> decide
  · intro h
    simp only [blanks, List.mem_cons, List.not_mem_nil, or_false] at h
    rcases h with rfl | rfl | rfl | rfl | rfl | rfl <;> decide

theorem not_blank_of_spells {d : Nat} {c : Char} (h : Spells d c) : c ∉ blanks := by
  intro hb
  have := digit_iff.mpr h
  simp only [blanks, List.mem_cons, List.not_mem_nil, or_false] at hb
  rcases hb with rfl | rfl | rfl | rfl | rfl | rfl <;> cases this

/-! ## Rows of digits -/

theorem foldl_digits (base : Nat) : ∀ (ds : List Nat) (acc : Nat), ds.foldl (fun a d => a * base + d) acc = acc * base ^ ds.length + Nat.ofDigits base ds.reverse
  | [], acc => by simp
  | d :: ds, acc => by
    rw [List.foldl_cons, foldl_digits base ds, List.reverse_cons, Nat.ofDigits_append, List.length_reverse, Nat.ofDigits_singleton, List.length_cons]
    ring

/-- What `scanDigits` returns: the longest row of digits that fits in the width. -/
theorem scanDigits_spec (base : Nat) : ∀ (w acc : Nat) (s : List Char), ∃ ds t rest, s = t ++ rest ∧ List.Forall₂ Spells ds t ∧ (∀ d ∈ ds, d < base) ∧
    t.length ≤ w ∧ (t.length = w ∨ Ends base rest) ∧ scanDigits base w acc s = (ds.foldl (fun a d => a * base + d) acc, rest)
  | w, acc, [] => ⟨[], [], [], rfl, .nil, by simp, Nat.zero_le _, .inr (by intro c r h; cases h), by cases w <;> rfl⟩
  | 0, acc, c :: s => ⟨[], [], c :: s, rfl, .nil, by simp, Nat.le_refl _, .inl rfl, rfl⟩
  | w + 1, acc, c :: s => by
    cases hd : digit c with
    | none =>
      refine ⟨[], [], c :: s, rfl, .nil, by simp, Nat.zero_le _, .inr ?_, by rw [scanDigits, hd]; rfl⟩
      rintro c' r h d - hsp
      cases h
      rw [digit_iff.mpr hsp] at hd
      cases hd
    | some d =>
      by_cases hb : d < base
      · obtain ⟨ds, t, rest, e, h1, h2, h3, h4, h5⟩ := scanDigits_spec base w (acc * base + d) s
        refine ⟨d :: ds, c :: t, rest, by rw [e]; rfl, .cons (digit_iff.mp hd) h1, ?_, by simpa using h3, by simpa using h4, ?_⟩
        · intro x hx
          rcases List.mem_cons.mp hx with rfl | hx
          · exact hb
          · exact h2 x hx
        · rw [scanDigits, hd]; simp only [if_pos hb, h5, List.foldl_cons]
      · refine ⟨[], [], c :: s, rfl, .nil, by simp, Nat.zero_le _, .inr ?_, by rw [scanDigits, hd]; simp only [if_neg hb]; rfl⟩
        rintro c' r h d' hd' hsp
        cases h
        rw [digit_iff.mpr hsp] at hd
        cases hd
        exact hb hd'

/-- The longest row of digits is unique. -/
theorem longest_unique {base w : Nat} : ∀ {ds t rest ds' t' rest'}, List.Forall₂ Spells ds t → (∀ d ∈ ds, d < base) → t.length ≤ w →
    (t.length = w ∨ Ends base rest) → List.Forall₂ Spells ds' t' → (∀ d ∈ ds', d < base) → t'.length ≤ w → (t'.length = w ∨ Ends base rest') →
    t ++ rest = t' ++ rest' → ds = ds' ∧ t = t' ∧ rest = rest' := by
  induction w with
  | zero =>
    intro ds t rest ds' t' rest' h1 _ h3 _ h5 _ h7 _ he
    obtain rfl : t = [] := List.length_eq_zero_iff.mp (by omega)
    obtain rfl : t' = [] := List.length_eq_zero_iff.mp (by omega)
    cases h1; cases h5
    exact ⟨rfl, rfl, he⟩
  | succ w ih =>
    intro ds t rest ds' t' rest' h1 h2 h3 h4 h5 h6 h7 h8 he
    cases h1 with
    | nil =>
      cases h5 with
      | nil => exact ⟨rfl, rfl, he⟩
      | @cons d' c' ds' t' hs _ =>
        rcases h4 with h4 | h4
        · simp at h4
        · exact absurd hs (h4 c' (t' ++ rest') (by simpa using he) d' (h6 d' (by simp)))
    | @cons d c ds t hs h1 =>
      cases h5 with
      | nil =>
        rcases h8 with h8 | h8
        · simp at h8
        · exact absurd hs (h8 c (t ++ rest) (by simpa using he.symm) d (h2 d (by simp)))
      | @cons d' c' ds' t' hs' h5 =>
        simp only [List.cons_append, List.cons.injEq] at he
        obtain ⟨rfl, he⟩ := he
        have hdd : d = d' := by
          have a := digit_iff.mpr hs
          rw [digit_iff.mpr hs'] at a
          exact (Option.some.inj a).symm
        obtain ⟨rfl, rfl, rfl⟩ := ih h1 (fun x hx => h2 x (List.mem_cons_of_mem _ hx)) (by simpa using h3) (by simpa using h4) h5
          (fun x hx => h6 x (List.mem_cons_of_mem _ hx)) (by simpa using h7) (by simpa using h8) he
        exact ⟨by rw [hdd], rfl, rfl⟩

theorem scanNat_iff {base w : Nat} {s rest : List Char} {v : Nat} :
    scanNat base w s = some (v, rest) ↔ ∃ t, s = t ++ rest ∧ Digits base t v ∧ t.length ≤ w ∧ (t.length = w ∨ Ends base rest) := by
  obtain ⟨ds, t, r, e, h1, h2, h3, h4, h5⟩ := scanDigits_spec base w 0 s
  unfold scanNat
  rw [h5]
  simp only
  constructor
  · intro h
    split at h
    · rename_i hl
      cases h
      refine ⟨t, e, ⟨ds, h1, h2, ?_, ?_⟩, h3, h4⟩
      · rintro rfl
        rw [e] at hl
        simp at hl
      · rw [foldl_digits]; simp
    · cases h
  · rintro ⟨t', e', ⟨ds', g1, g2, g3, g4⟩, g5, g6⟩
    obtain ⟨rfl, rfl, rfl⟩ := longest_unique h1 h2 h3 h4 g1 g2 g5 g6 (e.symm.trans e')
    rw [if_pos, foldl_digits, g4]
    · simp
    · rw [e]
      have := List.length_pos_iff.mpr g3
      simp only [List.length_append]
      omega

/-! ## Blanks and signs -/

theorem dropWhile_spec : ∀ s : List Char, ∃ ws, s = ws ++ s.dropWhile isSpace ∧ (∀ c ∈ ws, c ∈ blanks) ∧
    ∀ c r, s.dropWhile isSpace = c :: r → c ∉ blanks
  | [] => ⟨[], rfl, by simp, by intro c r h; cases h⟩
  | a :: s => by
    rw [List.dropWhile_cons]
    by_cases ha : isSpace a = true
    · obtain ⟨ws, h1, h2, h3⟩ := dropWhile_spec s
      rw [if_pos ha]
      refine ⟨a :: ws, by rw [List.cons_append, ← h1], ?_, h3⟩
      intro c hc
      rcases List.mem_cons.mp hc with rfl | hc
      · exact isSpace_iff.mp ha
      · exact h2 c hc
    · rw [if_neg ha]
      refine ⟨[], rfl, by simp, ?_⟩
      intro c r h hb
      cases h
      exact ha (isSpace_iff.mpr hb)

theorem dropWhile_blanks {ws s : List Char} (h : ∀ c ∈ ws, c ∈ blanks) (hs : ∀ c r, s = c :: r → c ∉ blanks) : (ws ++ s).dropWhile isSpace = s := by
  rw [List.dropWhile_append_of_pos (fun c hc => isSpace_iff.mpr (h c hc))]
  cases s with
  | nil => rfl
  | cons c r =>
    rw [List.dropWhile_cons, if_neg]
    intro hc
    exact hs c r rfl (isSpace_iff.mp hc)

theorem Digits.cons {base : Nat} {t : List Char} {v : Nat} (h : Digits base t v) : ∃ c r d, t = c :: r ∧ Spells d c := by
  obtain ⟨ds, h1, _, h3, _⟩ := h
  cases h1 with
  | nil => exact absurd rfl h3
  | cons hs _ => exact ⟨_, _, _, rfl, hs⟩

theorem not_sign {d : Nat} {c : Char} (h : Spells d c) : c ≠ '-' ∧ c ≠ '+' := by
  have := digit_iff.mpr h
  constructor <;> rintro rfl <;> cases this

theorem scanD_iff {w : Nat} (hw : 0 < w) {s rest : List Char} {v : Int} : scanD w s = some (v, rest) ↔ Decimal w s v rest := by
  constructor
  · intro h
    obtain ⟨ws, e, hb, _⟩ := dropWhile_spec s
    unfold scanD at h
    generalize hd : s.dropWhile isSpace = u at h e
    split at h
    · obtain ⟨⟨n, r⟩, h1, h2⟩ := Option.map_eq_some_iff.mp h
      cases h2
      obtain ⟨t, rfl, h3, h4, h5⟩ := scanNat_iff.mp h1
      refine ⟨ws, ['-'], t, -1, n, by rw [e]; simp, hb, .minus, h3, by ring, by simp; omega, ?_⟩
      rcases h5 with h5 | h5
      · left; simp; omega
      · exact .inr h5
    · obtain ⟨⟨n, r⟩, h1, h2⟩ := Option.map_eq_some_iff.mp h
      cases h2
      obtain ⟨t, rfl, h3, h4, h5⟩ := scanNat_iff.mp h1
      refine ⟨ws, ['+'], t, 1, n, by rw [e]; simp, hb, .plus, h3, by ring, by simp; omega, ?_⟩
      rcases h5 with h5 | h5
      · left; simp; omega
      · exact .inr h5
    · obtain ⟨⟨n, r⟩, h1, h2⟩ := Option.map_eq_some_iff.mp h
      cases h2
      obtain ⟨t, rfl, h3, h4, h5⟩ := scanNat_iff.mp h1
      exact ⟨ws, [], t, 1, n, by rw [e]; simp, hb, .none, h3, by ring, by simpa using h4, by simpa using h5⟩
  · rintro ⟨ws, sg, t, f, n, rfl, hb, hsg, ht, rfl, hl, he⟩
    obtain ⟨c, r, d, rfl, hs⟩ := ht.cons
    unfold scanD
    rw [List.append_assoc, List.append_assoc, dropWhile_blanks hb]
    · cases hsg with
      | none =>
        have hc := not_sign hs
        have : scanNat 10 w (c :: r ++ rest) = some (n, rest) := scanNat_iff.mpr ⟨_, rfl, ht, by simpa using hl, by simpa using he⟩
        simp only [List.nil_append, List.cons_append] at this ⊢
        split
        · rename_i h; cases h; exact absurd rfl hc.1
        · rename_i h; cases h; exact absurd rfl hc.2
        · rw [this]; simp
      | plus =>
        have : scanNat 10 (w - 1) (c :: r ++ rest) = some (n, rest) :=
          scanNat_iff.mpr ⟨_, rfl, ht, by simp at hl ⊢; omega, he.imp (fun h => by simp at h ⊢; omega) id⟩
        simp only [List.cons_append, List.nil_append] at this ⊢
        rw [this]; simp
      | minus =>
        have : scanNat 10 (w - 1) (c :: r ++ rest) = some (n, rest) :=
          scanNat_iff.mpr ⟨_, rfl, ht, by simp at hl ⊢; omega, he.imp (fun h => by simp at h ⊢; omega) id⟩
        simp only [List.cons_append, List.nil_append] at this ⊢
        rw [this]; simp
    · intro a u h
      cases hsg with
      | none => cases h; exact not_blank_of_spells hs
      | plus => cases h; decide
      | minus => cases h; decide

theorem scanNat_free {base : Nat} {s rest : List Char} {v : Nat} :
    scanNat base s.length s = some (v, rest) ↔ ∃ t, s = t ++ rest ∧ Digits base t v ∧ Ends base rest := by
  rw [scanNat_iff]
  constructor
  · rintro ⟨t, e, h1, h2, h3⟩
    refine ⟨t, e, h1, ?_⟩
    rcases h3 with h3 | h3
    · have : rest = [] := by
        apply List.length_eq_zero_iff.mp
        rw [e] at h3
        simp only [List.length_append] at h3
        omega
      subst this
      intro c r h
      cases h
    · exact h3
  · rintro ⟨t, e, h1, h2⟩
    exact ⟨t, e, h1, by rw [e]; simp, .inr h2⟩

theorem scanPrefixed_iff {s rest : List Char} {n : Nat} : scanPrefixed s = some (n, rest) ↔ ∃ t, s = t ++ rest ∧ Constant t n rest := by
  constructor
  · intro h
    unfold scanPrefixed at h
    split at h
    · obtain ⟨t, rfl, h1, h2⟩ := scanNat_free.mp h
      exact ⟨'0' :: 'x' :: t, rfl, .hex (.inl rfl) h1 h2⟩
    · obtain ⟨t, rfl, h1, h2⟩ := scanNat_free.mp h
      exact ⟨'0' :: 'X' :: t, rfl, .hex (.inr rfl) h1 h2⟩
    · rename_i u hx hX
      obtain ⟨t, e, h1, h2⟩ := scanNat_free.mp h
      obtain ⟨c, r, d, rfl, -⟩ := h1.cons
      simp only [List.cons_append, List.cons.injEq] at e
      obtain ⟨rfl, rfl⟩ := e
      exact ⟨'0' :: r, rfl, .octal h1 h2 (fun r' h' => hx r' (by rw [h'])) (fun r' h' => hX r' (by rw [h']))⟩
    · rename_i h0
      obtain ⟨t, rfl, h1, h2⟩ := scanNat_free.mp h
      refine ⟨t, rfl, .decimal h1 ?_ h2⟩
      rintro r rfl
      exact h0 (r ++ rest) rfl
  · rintro ⟨t, rfl, h⟩
    cases h with
    | decimal h1 h2 h3 =>
      have e := scanNat_free.mpr ⟨t, rfl, h1, h3⟩
      obtain ⟨c, r, d, rfl, -⟩ := h1.cons
      unfold scanPrefixed
      rw [List.cons_append] at e ⊢
      split
      · rename_i h; exact absurd (by rw [(List.cons.inj h).1]) (h2 r)
      · rename_i h; exact absurd (by rw [(List.cons.inj h).1]) (h2 r)
      · rename_i h; exact absurd (by rw [(List.cons.inj h).1]) (h2 r)
      · exact e
    | @octal t _ _ h1 h2 h3 h4 =>
      have e := scanNat_free.mpr ⟨'0' :: t, rfl, h1, h2⟩
      unfold scanPrefixed
      rw [List.cons_append] at e ⊢
      split
      · rename_i h; exact absurd (List.cons.inj h).2 (h3 _)
      · rename_i h; exact absurd (List.cons.inj h).2 (h4 _)
      · exact e
      · rename_i h0; exact absurd rfl (h0 _)
    | hex hx h1 h2 =>
      rcases hx with rfl | rfl
      · exact scanNat_free.mpr ⟨_, rfl, h1, h2⟩
      · exact scanNat_free.mpr ⟨_, rfl, h1, h2⟩

theorem Constant.cons {t rest : List Char} {n : Nat} (h : Constant t n rest) : ∃ c r d, t = c :: r ∧ Spells d c := by
  cases h with
  | decimal h _ _ => exact h.cons
  | octal h _ _ _ => exact ⟨_, _, 0, rfl, .inl rfl⟩
  | hex _ _ _ => exact ⟨_, _, 0, rfl, .inl rfl⟩

theorem scanI_iff {s rest : List Char} {v : Int} : scanI s = some (v, rest) ↔ Integer s v rest := by
  constructor
  · intro h
    obtain ⟨ws, e, hb, _⟩ := dropWhile_spec s
    unfold scanI at h
    generalize hd : s.dropWhile isSpace = u at h e
    split at h
    · obtain ⟨⟨n, r⟩, h1, h2⟩ := Option.map_eq_some_iff.mp h
      cases h2
      obtain ⟨t, rfl, h3⟩ := scanPrefixed_iff.mp h1
      exact ⟨ws, ['-'], t, -1, n, by rw [e]; simp, hb, .minus, h3, by ring⟩
    · obtain ⟨⟨n, r⟩, h1, h2⟩ := Option.map_eq_some_iff.mp h
      cases h2
      obtain ⟨t, rfl, h3⟩ := scanPrefixed_iff.mp h1
      exact ⟨ws, ['+'], t, 1, n, by rw [e]; simp, hb, .plus, h3, by ring⟩
    · obtain ⟨⟨n, r⟩, h1, h2⟩ := Option.map_eq_some_iff.mp h
      cases h2
      obtain ⟨t, rfl, h3⟩ := scanPrefixed_iff.mp h1
      exact ⟨ws, [], t, 1, n, by rw [e]; simp, hb, .none, h3, by ring⟩
  · rintro ⟨ws, sg, t, f, n, rfl, hb, hsg, ht, rfl⟩
    have e := scanPrefixed_iff.mpr ⟨t, rfl, ht⟩
    obtain ⟨c, r, d, rfl, hs⟩ := ht.cons
    unfold scanI
    rw [List.append_assoc, List.append_assoc, dropWhile_blanks hb]
    · cases hsg with
      | none =>
        have hc := not_sign hs
        simp only [List.nil_append, List.cons_append] at e ⊢
        split
        · rename_i h; cases h; exact absurd rfl hc.1
        · rename_i h; cases h; exact absurd rfl hc.2
        · rw [e]; simp
      | plus => simp only [List.cons_append, List.nil_append] at e ⊢; rw [e]; simp
      | minus => simp only [List.cons_append, List.nil_append] at e ⊢; rw [e]; simp
    · intro a u h
      cases hsg with
      | none => cases h; exact not_blank_of_spells hs
      | plus => cases h; decide
      | minus => cases h; decide

/-! ## Words -/

theorem takeWhile_spec : ∀ s : List Char, ∃ rest, s = s.takeWhile (fun c => !isSpace c) ++ rest ∧
    (∀ c ∈ s.takeWhile (fun c => !isSpace c), c ∉ blanks) ∧ ∀ c r, rest = c :: r → c ∈ blanks
  | [] => ⟨[], rfl, by simp, by intro c r h; cases h⟩
  | a :: s => by
    rw [List.takeWhile_cons]
    by_cases ha : isSpace a = true
    · rw [if_neg (by simp [ha])]
      exact ⟨a :: s, rfl, by simp, by intro c r h; cases h; exact isSpace_iff.mp ha⟩
    · obtain ⟨rest, h1, h2, h3⟩ := takeWhile_spec s
      rw [if_pos (by simpa using ha)]
      refine ⟨rest, by rw [List.cons_append, ← h1], ?_, h3⟩
      intro c hc
      rcases List.mem_cons.mp hc with rfl | hc
      · exact fun hb => ha (isSpace_iff.mpr hb)
      · exact h2 c hc

theorem scanWord_iff {s w rest : List Char} : scanWord s = some (w, rest) ↔ Word 4 s w rest := by
  constructor
  · intro h
    obtain ⟨ws, e, hb, hn⟩ := dropWhile_spec s
    unfold scanWord at h
    generalize hd : s.dropWhile isSpace = u at h e hn
    split at h
    · cases h
    · rename_i hu
      obtain ⟨r, h1, h2, h3⟩ := takeWhile_spec (u.take 4)
      have hu4 : u = u.take 4 ++ u.drop 4 := (List.take_append_drop 4 u).symm
      generalize hw : (u.take 4).takeWhile (fun c => !isSpace c) = w' at h h1 h2
      cases h
      have hlen : w.length ≤ 4 := by
        have := congrArg List.length h1
        simp only [List.length_take, List.length_append] at this
        omega
      have hdrop : u = w ++ u.drop w.length := by
        have : w = u.take w.length := by
          rw [hu4, h1, List.append_assoc, List.take_left]
        conv_lhs => rw [← List.take_append_drop w.length u]
        rw [← this]
      have hrest : u.drop w.length = r ++ u.drop 4 := by
        conv_lhs => rw [hu4, h1, List.append_assoc, List.drop_left]
      refine ⟨ws, by rw [List.append_assoc, ← hdrop]; exact e, hb, ?_, h2, hlen, ?_⟩
      · rintro rfl
        cases u with
        | nil => exact hu rfl
        | cons a u =>
          have ha := hn a u rfl
          rw [List.take_succ_cons, List.takeWhile_cons, if_pos] at hw
          · cases hw
          · simp only [Bool.not_eq_true']
            cases hsp : isSpace a
            · rfl
            · exact absurd (isSpace_iff.mp hsp) ha
      · cases r with
        | nil =>
          by_cases h4 : w.length = 4
          · exact .inl h4
          · right
            rw [List.append_nil] at h1
            have := congrArg List.length h1
            simp only [List.length_take] at this
            rw [hrest, List.drop_eq_nil_of_le (by omega)]
            intro c r h
            cases h
        | cons a r =>
          right
          rw [hrest]
          intro c r' h
          cases h
          exact h3 a r rfl
  · rintro ⟨ws, rfl, hb, hne, hw, hl, hr⟩
    unfold scanWord
    cases w with
    | nil => exact absurd rfl hne
    | cons a w =>
      rw [List.append_assoc, dropWhile_blanks hb (by intro c r h; cases h; exact hw a (by simp))]
      have key : ((a :: w ++ rest).take 4).takeWhile (fun c => !isSpace c) = a :: w := by
        have hp : ∀ c ∈ a :: w, (!isSpace c) = true := by
          intro c hc
          simp only [Bool.not_eq_true']
          cases hsp : isSpace c
          · rfl
          · exact absurd (isSpace_iff.mp hsp) (hw c hc)
        rw [List.take_append, List.take_of_length_le hl, List.takeWhile_append_of_pos hp]
        rcases hr with hr | hr
        · rw [hr]; simp
        · cases rest with
          | nil => simp
          | cons c r =>
            cases hk : 4 - (a :: w).length with
            | zero => simp
            | succ k =>
              rw [List.take_succ_cons, List.takeWhile_cons, if_neg, List.append_nil]
              rw [isSpace_iff.mpr (hr c r rfl)]
              simp
      simp only [List.cons_append] at key ⊢
      rw [key]
      simp

/-! ## The whole text -/

theorem scanTime_iff {s : List Char} {h m sec : Int} : scanTime s = (some h, some m, some sec) ↔ Time s h m sec := by
  constructor
  · intro e
    unfold scanTime at e
    split at e
    · cases e
    · rename_i h' s1 h1
      split at e
      · cases e
      · rename_i m' s2 h2
        simp only [Prod.mk.injEq, Option.some.injEq, Option.map_eq_some_iff] at e
        obtain ⟨rfl, rfl, ⟨sec', s3⟩, h3, rfl⟩ := e
        exact ⟨s1, s2, s3, scanI_iff.mp h1, scanI_iff.mp h2, scanI_iff.mp h3⟩
      · cases e
    · cases e
  · rintro ⟨r₁, r₂, r₃, h1, h2, h3⟩
    unfold scanTime
    rw [scanI_iff.mpr h1]
    simp only
    rw [scanI_iff.mpr h2]
    simp only
    rw [scanI_iff.mpr h3]
    rfl

theorem scanDate_iff {s w : List Char} {day year : Int} : scanDate s = (some w, some day, some year) ↔ Date s w day year := by
  constructor
  · intro e
    unfold scanDate at e
    split at e
    · cases e
    · rename_i w' s1 h1
      split at e
      · cases e
      · rename_i d' s2 h2
        simp only [Prod.mk.injEq, Option.some.injEq, Option.map_eq_some_iff] at e
        obtain ⟨rfl, rfl, ⟨y', s3⟩, h3, rfl⟩ := e
        exact ⟨s1, s2, s3, scanWord_iff.mp h1, (scanD_iff (by omega)).mp h2, (scanD_iff (by omega)).mp h3⟩
  · rintro ⟨r₁, r₂, r₃, h1, h2, h3⟩
    unfold scanDate
    rw [scanWord_iff.mpr h1]
    simp only
    rw [(scanD_iff (by omega)).mpr h2]
    simp only
    rw [(scanD_iff (by omega)).mpr h3]
    rfl

theorem strstr_spec (needle : List Char) : ∀ (hay : List Char) (i : Nat),
    (strstr hay needle i = none → ∀ pre post, hay ≠ pre ++ needle ++ post) ∧
    ∀ k, strstr hay needle i = some k → ∃ pre post, hay = pre ++ needle ++ post ∧ k = i + pre.length ∧
      ∀ pre' post', hay = pre' ++ needle ++ post' → pre.length ≤ pre'.length
  | [], i => by
    unfold strstr
    constructor
    · intro h pre post e
      split at h
      · cases h
      · rename_i hn
        simp at e
        exact hn e.2.1
    · intro k h
      split at h
      · rename_i hn
        cases h
        exact ⟨[], [], by rw [hn]; rfl, rfl, fun _ _ _ => Nat.zero_le _⟩
      · cases h
  | c :: cs, i => by
    obtain ⟨ih1, ih2⟩ := strstr_spec needle cs (i + 1)
    unfold strstr
    constructor
    · intro h pre post e
      split at h
      · cases h
      · rename_i hn
        cases pre with
        | nil => exact hn (List.isPrefixOf_iff_prefix.mpr ⟨post, by simpa using e.symm⟩)
        | cons p pre =>
          simp only [List.cons_append, List.cons.injEq] at e
          exact ih1 h pre post e.2
    · intro k h
      split at h
      · rename_i hp
        cases h
        obtain ⟨post, hpost⟩ := List.isPrefixOf_iff_prefix.mp hp
        exact ⟨[], post, by simpa using hpost.symm, rfl, fun _ _ _ => Nat.zero_le _⟩
      · rename_i hn
        obtain ⟨pre, post, e, hk, hm⟩ := ih2 k h
        refine ⟨c :: pre, post, by rw [e]; rfl, by rw [hk, List.length_cons]; omega, ?_⟩
        intro pre' post' e'
        cases pre' with
        | nil => exact absurd (List.isPrefixOf_iff_prefix.mpr ⟨post', by simpa using e'.symm⟩) hn
        | cons p pre' =>
          simp only [List.cons_append, List.cons.injEq] at e'
          have := hm pre' post' e'.2
          simp only [List.length_cons]
          omega

theorem monthOf_iff {w : List Char} {month : Int} : monthOf w = .ok month ↔ Month monthNames w month := by
  obtain ⟨h1, h2⟩ := strstr_spec w monthNames 0
  unfold monthOf
  cases hs : strstr monthNames w with
  | none =>
    simp only
    constructor
    · intro h; cases h
    · rintro ⟨pre, post, e, _⟩
      exact absurd e (h1 hs pre post)
  | some k =>
    obtain ⟨pre, post, e, hk, hm⟩ := h2 k hs
    simp only
    constructor
    · intro h
      cases h
      exact ⟨pre, post, e, by rw [hk]; simp, hm⟩
    · rintro ⟨pre', post', e', rfl, hm'⟩
      have : pre.length = pre'.length := Nat.le_antisymm (hm _ _ e') (hm' _ _ e)
      rw [hk, Nat.zero_add, this]
      simp

theorem inInt_iff {v w : Int} : inInt v = .ok w ↔ w = v ∧ FitsInt v := by
  unfold inInt FitsInt
  constructor
  · intro h
    split at h
    · cases h; exact ⟨rfl, by omega⟩
    · cases h
  · rintro ⟨rfl, h⟩
    rw [if_pos (by omega)]

theorem Month.range {w : List Char} {month : Int} (h : Month monthNames w month) (hw : w ≠ []) : ∃ m : Nat, m < 12 ∧ month = m + 1 := by
  obtain ⟨pre, post, e, rfl, _⟩ := h
  have hl : monthNames.length = 36 := rfl
  rw [e] at hl
  simp only [List.length_append] at hl
  have := List.length_pos_iff.mpr hw
  exact ⟨pre.length / 3, by omega, rfl⟩

theorem calcYearDay_ok (year day : Int) {m : Nat} (hm : m < 12) : calcYearDay year ((m : Int) + 1) day = .ok (daysBefore year m + (day - 1)) := by
  unfold calcYearDay
  have h1 : ((m : Int) + 1 - 1).toNat = m := by omega
  have h2 := addMonths_add m 1 0 (day - 1)
  rw [Int.zero_add, addMonths_table year m hm] at h2
  rw [h1, h2]
  simp only [Except.map, res_bind_ok, res_pure]
  congr 1
  by_cases hl : Leap year
  · have := (C60_leap year).mpr hl
    by_cases h : 2 ≤ m
    · have h' : (2 : Int) < (m : Int) + 1 := by omega
      simp [this, hl, h, h']
      ring
    · have h' : ¬ (2 : Int) < (m : Int) + 1 := by omega
      simp [h, h']
  · have : isLeapYear year = false := by
      cases hh : isLeapYear year
      · rfl
      · exact absurd ((C60_leap year).mp hh) hl
    simp [this, hl]

end Text

open Text

/-- C139: a `DateTime` gets its fields from two texts exactly when the first is a word, a day and a year, the word (of which only four characters count) occurs in the names of the
months, and the second is three integer constants with colons between them, each in the range of `int`.  The fields are then the numbers written there. -/
theorem C139_fields (buff date time : List Char) (tm : Tm) : fieldsOf buff date time = .ok tm ↔
    ∃ w day year month h m s, Text.Date date w day year ∧ Month monthNames w month ∧ Text.Time time h m s ∧ FitsInt h ∧ FitsInt m ∧ FitsInt s ∧
      tm = { year := some (year - 1900), mon := some (month - 1), mday := some day, hour := some h, min := some m, sec := some s,
             yday := some (daysBefore year (month - 1).toNat + (day - 1)) } := by
  constructor
  · intro e
    unfold fieldsOf at e
    cases hd : scanDate date with
    | mk w dy =>
    obtain ⟨d, y⟩ := dy
    cases ht : scanTime time with
    | mk h ms =>
    obtain ⟨m, s⟩ := ms
    rw [hd, ht] at e
    simp only at e
    obtain ⟨month, h1, e⟩ := res_bind e
    obtain ⟨year, h2, e⟩ := res_bind e
    obtain ⟨day, h3, e⟩ := res_bind e
    obtain ⟨h', h4, e⟩ := res_bind e
    obtain ⟨hour, h5, e⟩ := res_bind e
    obtain ⟨m', h6, e⟩ := res_bind e
    obtain ⟨min, h7, e⟩ := res_bind e
    obtain ⟨s', h8, e⟩ := res_bind e
    obtain ⟨sec, h9, e⟩ := res_bind e
    obtain ⟨yd, h10, e⟩ := res_bind e
    cases e
    have hu : ∀ {v : Option Int} {x : Int}, use v = .ok x → v = some x := by intro v x h; cases v <;> cases h; rfl
    rw [hu h2, hu h3] at hd
    rw [hu h4, hu h6, hu h8] at ht
    obtain ⟨rfl, f1⟩ := inInt_iff.mp h5
    obtain ⟨rfl, f2⟩ := inInt_iff.mp h7
    obtain ⟨rfl, f3⟩ := inInt_iff.mp h9
    cases w with
    | none =>
      exfalso
      unfold scanDate at hd
      split at hd
      · cases hd
      · split at hd <;> cases hd
    | some w =>
      have hD := scanDate_iff.mp hd
      have hM := monthOf_iff.mp h1
      refine ⟨w, day, year, month, _, _, _, hD, hM, scanTime_iff.mp ht, f1, f2, f3, ?_⟩
      obtain ⟨_, _, _, ⟨_, _, _, hne, _⟩, _⟩ := hD
      obtain ⟨k, hk, rfl⟩ := hM.range hne
      rw [calcYearDay_ok year day hk] at h10
      cases h10
      simp
  · rintro ⟨w, day, year, month, h, m, s, hD, hM, hT, f1, f2, f3, rfl⟩
    have hne : w ≠ [] := by
      obtain ⟨_, _, _, ⟨_, _, _, hne, _⟩, _⟩ := hD
      exact hne
    obtain ⟨k, hk, rfl⟩ := hM.range hne
    refine fieldsOf_of (scanDate_iff.mpr hD) (monthOf_iff.mpr hM) (scanTime_iff.mpr hT) (inInt_iff.mpr ⟨rfl, f1⟩) (inInt_iff.mpr ⟨rfl, f2⟩) (inInt_iff.mpr ⟨rfl, f3⟩) ?_
    rw [calcYearDay_ok year day hk]
    simp

/-- C139: every other pair of texts is undefined behaviour. -/
theorem C139_undefined (buff date time : List Char)
    (hno : ¬ ∃ w day year month h m s, Text.Date date w day year ∧ Month monthNames w month ∧ Text.Time time h m s ∧ FitsInt h ∧ FitsInt m ∧ FitsInt s) :
    fieldsOf buff date time = .error .ub := by
  cases e : fieldsOf buff date time with
  | error f => rw [fieldsOf_error e]
  | ok tm =>
    obtain ⟨w, day, year, month, h, m, s, h1, h2, h3, h4, h5, h6, _⟩ := (C139_fields buff date time tm).mp e
    exact absurd ⟨w, day, year, month, h, m, s, h1, h2, h3, h4, h5, h6⟩ hno

/-- Such texts: hexadecimal hours, a sign, any piece of the names of the months. -/
example : fieldsOf [] "anF +7 -123".toList " 0x17: 010 :-1".toList = .error .ub ∧
    fieldsOf [] "anF +7 -123".toList "\t0x17:010:-1 h".toList =
      .ok { year := some (-2023), mon := some 0, mday := some 7, hour := some 23, min := some 8, sec := some (-1), yday := some 6 } ∧
    fieldsOf [] "May 1 2024".toList "12:00:4294967296".toList = .error .ub := by decide +kernel

end Spine
