import Verif.Model.Text
import Verif.Spec.Texts
import Verif.Core.Bind
import Verif.Props.Units
import Mathlib.Tactic.IntervalCases
/-!
# C56-C58, C85, C86: texts
-/

namespace Spine

open Text

/-! ## C56: stripping -/

theorem stripCount_spec {d : List Char} : ∀ {s : List Char}, (∃ c ∈ s, c ∉ d) →
    ∃ n, stripCount d s = .ok n ∧ n ≤ s.length ∧ (∀ c ∈ s.take n, c ∈ d) ∧ ∀ c, (s.drop n).head? = some c → c ∉ d := by
  intro s
  induction s with
  | nil => rintro ⟨c, hc, -⟩; cases hc
  | cons c cs ih =>
    intro h
    by_cases hc : c ∈ d
    · obtain ⟨n, e, h1, h2, h3⟩ := ih (by
        obtain ⟨x, hx, hn⟩ := h
        rcases List.mem_cons.mp hx with rfl | hx
        · exact absurd hc hn
        · exact ⟨x, hx, hn⟩)
      refine ⟨n + 1, ?_, by simp; omega, ?_, ?_⟩
      · rw [stripCount, if_pos (by simpa using hc), e]; rfl
      · intro x hx
        rw [List.take_succ_cons] at hx
        rcases List.mem_cons.mp hx with rfl | hx
        · exact hc
        · exact h2 x hx
      · exact h3
    · exact ⟨0, by rw [stripCount, if_neg (by simpa using hc)], by omega, by simp, by simpa using hc⟩

/-- C56: `lstrip` removes exactly the leading delimiters. Missing: texts of nothing but delimiters (`C56_blank_counterexample`). -/
theorem C56_lstrip_partial {s d : List Char} (h : ∃ c ∈ s, c ∉ d) : ∃ r, lstrip s d = .ok r ∧ IsLstrip s d r := by
  obtain ⟨n, e, h1, h2, h3⟩ := stripCount_spec h
  refine ⟨s.drop n, ?_, s.take n, (List.take_append_drop n s).symm, h2, h3⟩
  rw [lstrip, e, res_bind_ok, List.take_of_length_le (by simp)]
  rfl

example : lstrip "  \tab ".toList " \t".toList = .ok "ab ".toList := by decide +kernel

/-- C56 is false for texts of nothing but delimiters, such as the empty one: both functions read past the end. -/
theorem C56_blank_counterexample {s d : List Char} (h : ∀ c ∈ s, c ∈ d) : lstrip s d = .error .ub ∧ rstrip s d = .error .ub := by
  have key : ∀ s : List Char, (∀ c ∈ s, c ∈ d) → stripCount d s = .error .ub := by
    intro s
    induction s with
    | nil => intro _; rfl
    | cons c cs ih =>
      intro h
      rw [stripCount, if_pos (by simpa using h c (by simp)), ih (fun x hx => h x (by simp [hx]))]
      rfl
  rw [lstrip, rstrip, key s h, key s.reverse (fun c hc => h c (by simpa using hc))]
  exact ⟨rfl, rfl⟩

/-- C56 is false for `rstrip`: it removes as many characters from the front as there are delimiters at the end. -/
theorem C56_rstrip_counterexample {s p d : List Char} {c : Char} (hp : ∀ x ∈ p, x ∈ d) (hc : c ∉ d) :
    rstrip (s ++ [c] ++ p) d = .ok ((s ++ [c] ++ p).drop p.length) := by
  have key : ∀ q t : List Char, (∀ x ∈ q, x ∈ d) → stripCount d (q ++ c :: t) = .ok q.length := by
    intro q t
    induction q with
    | nil => intro _; rw [List.nil_append, stripCount, if_neg (by simpa using hc)]; rfl
    | cons x q ih =>
      intro h
      rw [List.cons_append, stripCount, if_pos (by simpa using h x (by simp)), ih (fun y hy => h y (by simp [hy]))]
      rfl
  have e := key p.reverse s.reverse (fun x hx => hp x (by simpa using hx))
  rw [rstrip, show (s ++ [c] ++ p).reverse = p.reverse ++ c :: s.reverse by simp, e, res_bind_ok, List.length_reverse, List.take_of_length_le (by simp)]
  rfl

/-- C56 for `rstrip`, if there is nothing to strip. -/
theorem C56_rstrip_partial {s d : List Char} {c : Char} (hc : c ∉ d) : rstrip (s ++ [c]) d = .ok (s ++ [c]) ∧ IsRstrip (s ++ [c]) d (s ++ [c]) := by
  have := C56_rstrip_counterexample (s := s) (p := []) (d := d) (by simp) hc
  rw [List.append_nil] at this
  exact ⟨this, [], by simp, by simp, by simpa using hc⟩

/-- "ab " becomes "b ". -/
example : rstrip "ab ".toList " ".toList = .ok "b ".toList ∧ ¬ IsRstrip "ab ".toList " ".toList "b ".toList := by
  refine ⟨by decide +kernel, ?_⟩
  rintro ⟨p, h, -⟩
  have := congrArg List.head? h
  simp at this

/-! ## C57: prefixes and suffixes -/

/-- C57: `starts_with`, for all texts. -/
theorem C57_starts (s n : List Char) : ∃ b, startsWith s n = .ok b ∧ (b = true ↔ ∃ t, s = n ++ t) := by
  refine ⟨_, by rw [startsWith, compareAt, if_neg (by omega)], ?_⟩
  rw [decide_eq_true_iff, List.drop_zero]
  constructor
  · intro h
    exact ⟨s.drop n.length, by conv_lhs => rw [← List.take_append_drop n.length s, h]⟩
  · rintro ⟨t, rfl⟩
    simp

/-- C57: `ends_with`, for a needle that is not longer than the text. -/
theorem C57_ends_partial {s n : List Char} (h : n.length ≤ s.length) : ∃ b, endsWith s n = .ok b ∧ (b = true ↔ ∃ t, s = t ++ n) := by
  refine ⟨_, by rw [endsWith, usub, if_pos h, compareAt, if_neg (by omega)], ?_⟩
  rw [decide_eq_true_iff, List.take_of_length_le (by simp)]
  constructor
  · intro e
    exact ⟨s.take (s.length - n.length), by conv_lhs => rw [← List.take_append_drop (s.length - n.length) s, e]⟩
  · rintro ⟨t, rfl⟩
    simp

example : endsWith "reset".toList "set".toList = .ok true ∧ endsWith "reset".toList "res".toList = .ok false ∧ startsWith "re".toList "reset".toList = .ok false := by
  decide +kernel

/-- C57 is false for longer needles: `ends_with` throws. -/
theorem C57_long_counterexample {s n : List Char} (h : s.length < n.length) (hn : n.length < sizeMod) : endsWith s n = .error .exception := by
  rw [endsWith, usub, if_neg (by omega), compareAt, if_pos (by omega)]

/-! ## C85: searching and reading numbers -/

theorem findFrom_spec {d : List Char} : ∀ (s : List Char) (i : Nat), match findFrom d i s with
    | none => ∀ c ∈ s, c ∉ d
    | some k => ∃ p c q, s = p ++ c :: q ∧ k = i + p.length ∧ c ∈ d ∧ ∀ x ∈ p, x ∉ d := by
  intro s
  induction s with
  | nil => intro i; simp [findFrom]
  | cons c cs ih =>
    intro i
    rw [findFrom]
    by_cases hc : c ∈ d
    · rw [if_pos (by simpa using hc)]
      exact ⟨[], c, cs, rfl, rfl, hc, by simp⟩
    · rw [if_neg (by simpa using hc)]
      have := ih (i + 1)
      split at this
      · next h =>
        intro x hx
        rcases List.mem_cons.mp hx with rfl | hx
        · exact hc
        · exact this x hx
      · next k h =>
        obtain ⟨p, x, q, e1, e2, e3, e4⟩ := this
        refine ⟨c :: p, x, q, by rw [e1]; rfl, by rw [List.length_cons]; omega, e3, ?_⟩
        intro y hy
        rcases List.mem_cons.mp hy with rfl | hy
        · exact hc
        · exact e4 y hy

/-- C85: `find_first_of` gives the index of the first delimiter... -/
theorem C85_found {s d : List Char} {k : Nat} (h : findFirstOf s d = some k) : ∃ p c q, s = p ++ c :: q ∧ k = p.length ∧ c ∈ d ∧ ∀ x ∈ p, x ∉ d := by
  have := findFrom_spec (d := d) s 0
  rw [show findFrom d 0 s = some k from h] at this
  simpa using this

/-- ... and `npos` if and only if there is none. -/
theorem C85_npos {s d : List Char} : findFirstOf s d = none ↔ ∀ c ∈ s, c ∉ d := by
  have := findFrom_spec (d := d) s 0
  constructor
  · intro h
    rwa [show findFrom d 0 s = none from h] at this
  · intro h
    cases e : findFirstOf s d with
    | none => rfl
    | some k =>
      obtain ⟨p, c, q, rfl, -, hc, -⟩ := C85_found e
      exact absurd hc (h c (by simp))

example : findFirstOf "a,b;c".toList ";,".toList = some 1 ∧ findFirstOf "abc".toList ";,".toList = none := by decide +kernel

variable {F : Type}

/-- C85: a text followed by a NUL, as a string literal is, gives the number it spells, and 0 if it is not entirely a number. Missing: a
view of a part of a string (`C85_view_counterexample`, `C85_literal_counterexample`). -/
theorem C85_to_float_partial {zero : F} {strtof : List Char → F × Nat} {s after : List Char} (h0 : '\x00' ∉ s) (hlen : (strtof s).2 ≤ s.length) :
    toFloat zero strtof s ('\x00' :: after) = .ok (if s ≠ [] ∧ (strtof s).2 = s.length then (strtof s).1 else zero) := by
  unfold toFloat
  have e : (s ++ '\x00' :: after).takeWhile (· ≠ '\x00') = s := by
    rw [List.takeWhile_append_of_pos (by intro c hc; rw [decide_eq_true_iff]; rintro rfl; exact h0 hc)]
    simp
  simp only [e]
  rw [if_neg (by simp)]
  generalize strtof s = r at *
  obtain ⟨v, len⟩ := r
  simp only at *
  by_cases hs : s = []
  · subst hs
    simp at hlen
    simp [hlen]
  · have hpos : 0 < s.length := List.length_pos_iff.mpr hs
    by_cases hl : len = s.length
    · subst hl
      simp [hs]
    · rw [if_neg (c := s ≠ [] ∧ len = s.length) (by simp [hl])]
      rw [if_pos]
      rw [Bool.or_eq_true]
      right
      rw [decide_eq_true_iff, List.getElem?_append_left (by omega), List.getElem?_eq_getElem (by omega)]
      intro hc
      exact h0 (by rw [← Option.some.inj hc]; exact List.getElem_mem _)

/-- Numbers in decimal notation without sign, point or exponent, as an example of what `strtof` does. -/
def wholeNumbers (s : List Char) : Nat × Nat :=
  let ds := s.takeWhile isDigit
  (ds.foldl (fun acc c => acc * 10 + (c.toNat - 48)) 0, ds.length)

example : toFloat 0 wholeNumbers "12".toList "\x00".toList = .ok 12 ∧ toFloat 0 wholeNumbers "12a".toList "\x00".toList = .ok 0 := by decide +kernel

/-- C85 is false for a view of a part of a string: what follows is read as well. The first two characters of "123" give 123, and those of
"12," give 0. -/
theorem C85_view_counterexample : toFloat 0 wholeNumbers "12".toList "3\x00".toList = .ok 123 ∧ toFloat 0 wholeNumbers "12".toList ",\x00".toList = .ok 0 := by
  decide +kernel

/-- C85 is false for characters without a NUL after them, such as those of a `std::array`: undefined. -/
theorem C85_literal_counterexample {zero : F} {strtof : List Char → F × Nat} {s : List Char} (h0 : '\x00' ∉ s) : toFloat zero strtof s [] = .error .ub := by
  unfold toFloat
  simp only [List.append_nil]
  rw [if_pos h0]

/-! ## C58: reading a time -/

/-- The value of a list of digit characters. -/
def digitsVal (cs : List Char) : Nat := cs.foldl (fun acc c => acc * 10 + (c.toNat - '0'.toNat)) 0

theorem digitsVal_snoc (cs : List Char) (c : Char) : digitsVal (cs ++ [c]) = digitsVal cs * 10 + (c.toNat - '0'.toNat) := by
  simp [digitsVal]

theorem digit_val {d : Nat} (h : d < 10) : (Char.ofNat (48 + d)).toNat - '0'.toNat = d ∧ isDigit (Char.ofNat (48 + d)) = true := by
  interval_cases d <;> decide +kernel

theorem digit_char {c : Char} (h : isDigit c = true) : c.toNat - '0'.toNat < 10 ∧ c = Char.ofNat (48 + (c.toNat - '0'.toNat)) := by
  simp only [isDigit, Bool.and_eq_true, decide_eq_true_eq] at h
  have h1 : 48 ≤ c.toNat := h.1
  have h2 : c.toNat ≤ 57 := h.2
  have h0 : '0'.toNat = 48 := rfl
  rw [h0]
  refine ⟨by omega, ?_⟩
  rw [Nat.add_sub_cancel' h1, Char.ofNat_toNat]

/-- Numerals are the lists of digit characters that are not empty, with their value. -/
theorem numeral_iff {cs : List Char} {n : Nat} : Numeral cs n ↔ cs ≠ [] ∧ (∀ c ∈ cs, isDigit c = true) ∧ digitsVal cs = n := by
  constructor
  · rintro ⟨ds, hne, hd, rfl, rfl⟩
    refine ⟨by simpa using hne, ?_, ?_⟩
    · intro c hc
      simp only [List.mem_reverse, List.mem_map] at hc
      obtain ⟨d, hm, rfl⟩ := hc
      exact (digit_val (hd d hm)).2
    · clear hne
      induction ds with
      | nil => rfl
      | cons d ds ih =>
        rw [List.map_cons, List.reverse_cons, digitsVal_snoc, ih (fun x hx => hd x (by simp [hx])), (digit_val (hd d (by simp))).1, Nat.ofDigits_cons]
        push_cast
        omega
  · rintro ⟨hne, hd, rfl⟩
    refine ⟨(cs.map fun c => c.toNat - '0'.toNat).reverse, by simpa using hne, ?_, ?_, ?_⟩
    · intro d hm
      simp only [List.mem_reverse, List.mem_map] at hm
      obtain ⟨c, hc, rfl⟩ := hm
      exact (digit_char (hd c hc)).1
    · rw [List.map_reverse, List.reverse_reverse, List.map_map]
      symm
      conv_rhs => rw [← List.map_id cs]
      apply List.map_congr_left
      intro c hc
      exact (digit_char (hd c hc)).2.symm
    · clear hne
      induction cs using List.reverseRecOn with
      | nil => rfl
      | append_singleton cs c ih =>
        rw [digitsVal_snoc, ih (fun x hx => hd x (by simp [hx]))]
        simp only [List.map_append, List.map_cons, List.map_nil, List.reverse_append, List.reverse_cons, List.reverse_nil, List.nil_append, List.singleton_append,
          Nat.ofDigits_cons]
        push_cast
        omega

theorem unitOf_iff {u : List Char} {m : Mag} : unitOf u = some m ↔ u = m.text := by
  constructor
  · unfold unitOf
    intro h
    repeat' split at h
    all_goals first | (cases h; assumption) | cases h
  · rintro rfl
    cases m <;> decide +kernel

theorem unit_head (m : Mag) : ∃ c cs, m.text = c :: cs ∧ isDigit c = false := by
  cases m <;> exact ⟨_, _, rfl, by decide +kernel⟩

theorem split_digits {ds : List Char} (hd : ∀ c ∈ ds, isDigit c = true) {c : Char} (hc : isDigit c = false) (cs : List Char) :
    (ds ++ c :: cs).takeWhile isDigit = ds ∧ (ds ++ c :: cs).dropWhile isDigit = c :: cs := by
  rw [List.takeWhile_append_of_pos hd, List.dropWhile_append_of_pos hd, List.takeWhile_cons_of_neg (by simp [hc]), List.dropWhile_cons_of_neg (by simp [hc])]
  simp

theorem mem_takeWhile' {p : Char → Bool} {x : Char} : ∀ {l : List Char}, x ∈ l.takeWhile p → p x = true
  | [], h => by simp at h
  | c :: cs, h => by
    rw [List.takeWhile_cons] at h
    split at h
    · next hc =>
      rcases List.mem_cons.mp h with rfl | h
      · exact hc
      · exact mem_takeWhile' h
    · simp at h

/-- C58: `parse_time` gives a time for every text that denotes one of at most `INT_MAX` units... -/
theorem C58_accepts_partial {text : List Char} {m : Mag} {n : Nat} (h : DenotesTime text m n) (hn : n < 2 ^ 31) : parseTime text = .ok (some (m, (n : Int))) := by
  obtain ⟨ds, rfl, hnum⟩ := h
  obtain ⟨hne, hd, hv⟩ := numeral_iff.mp hnum
  obtain ⟨c, cs, ht, hc⟩ := unit_head m
  obtain ⟨h1, h2⟩ := split_digits hd hc cs
  have hu : unitOf (c :: cs) = some m := unitOf_iff.mpr ht.symm
  rw [ht, parseTime, if_neg (by simp), h1, h2]
  simp only [if_neg (List.cons_ne_nil c cs)]
  rw [stoi, if_neg hne]
  have hv' : ds.foldl (fun acc c => acc * 10 + (c.toNat - '0'.toNat)) 0 = n := hv
  simp only [hv', if_pos hn, res_bind_ok, hu]
  rfl

/-- ... and for no other: what it gives is what the text denotes. -/
theorem C58_sound {text : List Char} {m : Mag} {v : Int} (h : parseTime text = .ok (some (m, v))) : ∃ n : Nat, v = n ∧ n < 2 ^ 31 ∧ DenotesTime text m n := by
  rw [parseTime] at h
  split at h
  · cases h
  · simp only at h
    split at h
    · cases h
    · obtain ⟨value, e, h⟩ := res_bind h
      rw [stoi] at e
      split at e
      · cases e
      · simp only at e
        split at e
        · next hne hlt =>
          cases e
          injection h with h
          rw [Option.map_eq_some_iff] at h
          obtain ⟨m', hm, h⟩ := h
          injection h with e1 e2
          subst e1
          refine ⟨_, e2.symm, hlt, text.takeWhile isDigit, ?_, ?_⟩
          · rw [← unitOf_iff.mp hm, List.takeWhile_append_dropWhile]
          · exact numeral_iff.mpr ⟨hne, fun c hc => mem_takeWhile' hc, rfl⟩
        · cases e

/-- Which texts make it throw: those with a unit-like rest after no digits or too large a number. All others are rejected
with `nullopt`. -/
theorem C58_throws {text : List Char} : parseTime text = .error .exception ↔
    ∃ ds c cs, text = ds ++ c :: cs ∧ (∀ x ∈ ds, isDigit x = true) ∧ isDigit c = false ∧ (ds = [] ∨ 2 ^ 31 ≤ digitsVal ds) := by
  constructor
  · intro h
    rw [parseTime] at h
    split at h
    · cases h
    · simp only at h
      split at h
      · cases h
      · next hu =>
        obtain ⟨c, cs, hcs⟩ := List.exists_cons_of_ne_nil hu
        have hc : isDigit c = false := by
          have := List.head?_dropWhile_not isDigit text
          rw [hcs] at this
          simpa using this
        refine ⟨text.takeWhile isDigit, c, cs, by rw [← hcs, List.takeWhile_append_dropWhile], fun x hx => mem_takeWhile' hx, hc, ?_⟩
        by_cases hne : text.takeWhile isDigit = []
        · exact .inl hne
        · right
          by_contra hlt
          rw [stoi, if_neg hne] at h
          simp only at h
          rw [if_pos (by unfold digitsVal at hlt; omega)] at h
          cases h
  · rintro ⟨ds, c, cs, rfl, hd, hc, hor⟩
    obtain ⟨h1, h2⟩ := split_digits hd hc cs
    rw [parseTime, if_neg (by simp), h1, h2]
    simp only [if_neg (List.cons_ne_nil c cs)]
    by_cases hne : ds = []
    · rw [stoi, if_pos hne]; rfl
    · have hge := hor.resolve_left hne
      rw [stoi, if_neg hne]
      simp only
      rw [if_neg (by unfold digitsVal at hge; omega)]
      rfl

example : parseTime "10us".toList = .ok (some (.micro, 10)) ∧ parseTime "2h".toList = .ok (some (.hour, 2)) ∧ parseTime "10".toList = .ok none ∧
    parseTime "10 s".toList = .ok none := by decide +kernel

/-- C58 is false for a unit without a number, a negative number and a number above `INT_MAX`: it throws instead of giving `nullopt`. -/
theorem C58_throw_counterexample : parseTime "s".toList = .error .exception ∧ parseTime "-5s".toList = .error .exception ∧
    parseTime "2147483648s".toList = .error .exception := by decide +kernel

/-! ## C86: writing a time -/

theorem toUnit_err (src dst : Mag) {v : Int} (hv : 0 ≤ v) (hk : src.per dst * (v : Rat) ≤ 2 ^ 61) :
    ∃ r, toUnit src dst v = .ok r ∧ 0 ≤ r ∧ |(r : Rat) - src.per dst * v| ≤ 1 / 2 + src.per dst * v / 2 ^ 22 := by
  have hv' : (0 : Rat) ≤ v := by exact_mod_cast hv
  have hpos := per_pos src dst
  have hm : 0 ≤ src.per dst * (v : Rat) := by positivity
  unfold toUnit
  split
  · next h =>
    subst h
    refine ⟨v, rfl, hv, ?_⟩
    have : src.per src = 1 := by cases src <;> norm_num [Mag.per, Mag.seconds]
    rw [this, one_mul, sub_self, abs_zero]
    positivity
  · obtain ⟨r, e, h⟩ := C32_error_partial src dst (v := v) (by rwa [abs_of_nonneg hv'])
    rw [abs_of_nonneg hv'] at h
    refine ⟨r, e, ?_, h⟩
    by_contra hr
    have h1 : (r : Rat) ≤ -1 := by exact_mod_cast (by omega : r ≤ -1)
    have := (abs_le.mp h).1
    have : src.per dst * (v : Rat) / 2 ^ 22 ≤ src.per dst * v := by
      rw [div_le_iff₀ (by norm_num)]
      nlinarith
    linarith

theorem decimalNat_spec (n : Nat) : decimalNat n ≠ [] ∧ (∀ c ∈ decimalNat n, isDigit c = true) ∧ digitsVal (decimalNat n) = n := by
  induction n using Nat.strong_induction_on with
  | _ n ih =>
    rw [decimalNat]
    split
    · next h =>
      have := digit_val h
      refine ⟨by simp, ?_, ?_⟩
      · intro c hc
        rw [List.mem_singleton] at hc
        subst hc
        exact this.2
      · have e := digitsVal_snoc [] (digitChar n)
        rw [List.nil_append] at e
        rw [e]
        exact (by simpa [digitsVal, digitChar] using this.1)
    · next h =>
      obtain ⟨h1, h2, h3⟩ := ih (n / 10) (by omega)
      have := digit_val (Nat.mod_lt n (by norm_num : 10 > 0))
      refine ⟨by simp, ?_, ?_⟩
      · intro c hc
        rcases List.mem_append.mp hc with hc | hc
        · exact h2 c hc
        · rw [List.mem_singleton] at hc
          subst hc
          exact this.2
      · rw [digitsVal_snoc, h3]
        have e : (digitChar (n % 10)).toNat - '0'.toNat = n % 10 := this.1
        rw [e]
        omega

theorem decimalNat_length {k : Nat} : ∀ {n : Nat}, n < 10 ^ (k + 1) → (decimalNat n).length ≤ k + 1 := by
  induction k with
  | zero => intro n h; rw [decimalNat, if_pos (by simpa using h)]; simp
  | succ k ih =>
    intro n h
    rw [decimalNat]
    split
    · simp
    · have := ih (n := n / 10) (by rw [Nat.div_lt_iff_lt_mul (by norm_num)]; rwa [← pow_succ])
      simp
      omega

theorem decimal_nat {v : Int} {n : Nat} (h : v = n) : decimal v = decimalNat n := by
  subst h
  rw [decimal, if_neg (by omega)]
  rfl

/-- The unit `repr` chooses for `n`, and the time the finer units could not express within their limits. -/
def Chosen (m : Mag) (v : Int) (u : Mag) (n : Nat) : Prop :=
  match u with
  | .micro => n < 1000
  | .milli => n < 1000 ∧ 999 ≤ m.per .micro * v
  | .base => n < 900 ∧ 999 ≤ m.per .milli * v
  | .minute => n < 1440 ∧ 899 ≤ m.per .base * v
  | .hour => False
  | .day => 1439 ≤ m.per .minute * v

theorem reprParts_spec (m : Mag) {v : Int} (hv : 0 ≤ v) (hk : m.per .micro * (v : Rat) ≤ 2 ^ 61) :
    ∃ (u : Mag) (n : Nat), reprParts m v = .ok ((n : Int), u.text) ∧ n < 2 ^ 31 ∧ Chosen m v u n ∧ |(n : Rat) - m.per u * v| ≤ 1 / 2 + m.per u * v / 2 ^ 22 := by
  have hv' : (0 : Rat) ≤ v := by exact_mod_cast hv
  have scale : ∀ u : Mag, m.per u * (v : Rat) = m.per .micro * v * (1 / 1000000) / u.seconds := by
    intro u
    cases u <;> cases m <;> norm_num [Mag.per, Mag.seconds] <;> ring
  have e1 := scale .milli
  have e2 := scale .base
  have e3 := scale .minute
  have e4 := scale .hour
  have e5 := scale .day
  have hpos : 0 ≤ m.per .micro * (v : Rat) := mul_nonneg (per_pos _ _).le hv'
  simp only [Mag.seconds] at e1 e2 e3 e4 e5
  obtain ⟨us, h0, p0, b0⟩ := toUnit_err m .micro hv hk
  obtain ⟨ms, h1, p1, b1⟩ := toUnit_err m .milli hv (by rw [e1]; linarith)
  obtain ⟨s, h2, p2, b2⟩ := toUnit_err m .base hv (by rw [e2]; linarith)
  obtain ⟨mn, h3, p3, b3⟩ := toUnit_err m .minute hv (by rw [e3]; linarith)
  obtain ⟨h, h4, p4, b4⟩ := toUnit_err m .hour hv (by rw [e4]; linarith)
  obtain ⟨d, h5, p5, b5⟩ := toUnit_err m .day hv (by rw [e5]; linarith)
  have cast : ∀ r : Int, 0 ≤ r → ∃ n : Nat, r = n := fun r hr => ⟨r.toNat, (Int.toNat_of_nonneg hr).symm⟩
  obtain ⟨nus, rfl⟩ := cast us p0
  obtain ⟨nms, rfl⟩ := cast ms p1
  obtain ⟨ns, rfl⟩ := cast s p2
  obtain ⟨nm, rfl⟩ := cast mn p3
  obtain ⟨nh, rfl⟩ := cast h p4
  obtain ⟨nd, rfl⟩ := cast d p5
  push_cast at b0 b1 b2 b3 b4 b5
  have a0 := abs_le.mp b0
  have a1 := abs_le.mp b1
  have a2 := abs_le.mp b2
  have a3 := abs_le.mp b3
  have a4 := abs_le.mp b4
  have a5 := abs_le.mp b5
  simp only [reprParts, h0, h1, h2, h3, h4, h5, res_bind_ok, res_pure]
  by_cases c0 : (nus : Int) < 1000
  · rw [if_pos c0]
    exact ⟨.micro, nus, rfl, by omega, by show nus < 1000; omega, b0⟩
  rw [if_neg c0]
  have k0 : (1000 : Rat) ≤ nus := by exact_mod_cast (by omega : 1000 ≤ nus)
  by_cases c1 : (nms : Int) < 1000
  · rw [if_pos c1]
    exact ⟨.milli, nms, rfl, by omega, ⟨by omega, by linarith⟩, b1⟩
  rw [if_neg c1]
  have k1 : (1000 : Rat) ≤ nms := by exact_mod_cast (by omega : 1000 ≤ nms)
  by_cases c2 : (ns : Int) < 900
  · rw [if_pos c2]
    exact ⟨.base, ns, rfl, by omega, ⟨by omega, by linarith⟩, b2⟩
  rw [if_neg c2]
  have k2 : (900 : Rat) ≤ ns := by exact_mod_cast (by omega : 900 ≤ ns)
  by_cases c3 : (nm : Int) < 1440
  · rw [if_pos c3]
    exact ⟨.minute, nm, rfl, by omega, ⟨by omega, by linarith⟩, b3⟩
  rw [if_neg c3]
  have k3 : (1440 : Rat) ≤ nm := by exact_mod_cast (by omega : 1440 ≤ nm)
  have k4 : (23 : Rat) < nh := by rw [e4] at a4; rw [e3] at a3; linarith
  have k4' : 23 < nh := by exact_mod_cast k4
  have k5 : (0 : Rat) < nd := by rw [e5] at a5; rw [e3] at a3; linarith
  have k5' : 0 < nd := by exact_mod_cast k5
  rw [if_neg (by omega), if_pos (by omega)]
  have k6 : (nd : Rat) < 2 ^ 31 := by rw [e5] at a5; linarith
  exact ⟨.day, nd, rfl, by exact_mod_cast k6, show 1439 ≤ m.per .minute * v by linarith, b5⟩

/-- C86: the text of a time that is not negative and below 2^61 us (73000 years) denotes it to the nearest unit, up to the rounding errors of
`float`, in the first unit in which it stays below the limit, and `parse_time` reads it back. Missing: negative times
(`C86_negative_counterexample`). -/
theorem C86_repr_partial (m : Mag) {v : Int} (hv : 0 ≤ v) (hk : m.per .micro * (v : Rat) ≤ 2 ^ 61) :
    ∃ (text : List Char) (u : Mag) (n : Nat), Text.repr m v = .ok text ∧ DenotesTime text u n ∧ Chosen m v u n ∧ |(n : Rat) - m.per u * v| ≤ 1 / 2 + m.per u * v / 2 ^ 22 ∧
      parseTime text = .ok (some (u, (n : Int))) := by
  obtain ⟨u, n, e, hn, hc, hb⟩ := reprParts_spec m hv hk
  have hd : DenotesTime (decimalNat n ++ u.text) u n := ⟨_, rfl, numeral_iff.mpr (decimalNat_spec n)⟩
  refine ⟨decimalNat n ++ u.text, u, n, ?_, hd, hc, hb, C58_accepts_partial hd hn⟩
  have hl : (decimalNat n ++ u.text).length < 64 := by
    have h1 := decimalNat_length (k := 9) (n := n) (by omega)
    have h2 : u.text.length ≤ 2 := by cases u <;> decide
    rw [List.length_append]
    omega
  rw [Text.repr, e, res_bind_ok]
  simp only [decimal_nat rfl]
  rw [if_neg (by omega)]
  rfl

/-- C86: a time that is a whole number of the unit chosen, below 2^21, is written exactly. -/
theorem C86_exact {m : Mag} {v : Int} {text : List Char} {n k : Nat} {u : Mag} (hv : 0 ≤ v) (hk : m.per .micro * (v : Rat) ≤ 2 ^ 61)
    (h : Text.repr m v = .ok text) (hd : DenotesTime text u n) (hw : m.per u * (v : Rat) = k) (hk' : k < 2 ^ 21) : n = k := by
  obtain ⟨t, u', n', e, hd', -, hb, hp⟩ := C86_repr_partial m hv hk
  rw [e] at h
  cases h
  have hn : n < 2 ^ 31 := by
    obtain ⟨ds, e1, hn1⟩ := hd
    obtain ⟨ds', e2, hn2⟩ := hd'
    obtain ⟨-, g1, g1'⟩ := numeral_iff.mp hn1
    obtain ⟨-, g2, g2'⟩ := numeral_iff.mp hn2
    obtain ⟨c, cs, q1, q2⟩ := unit_head u
    obtain ⟨c', cs', q1', q2'⟩ := unit_head u'
    have t1 := (split_digits g1 q2 cs).1
    have t2 := (split_digits g2 q2' cs').1
    rw [← q1, ← e1] at t1
    rw [← q1', ← e2, t1] at t2
    subst t2
    have := C58_sound hp
    obtain ⟨n0, hn0, hlt, -⟩ := this
    omega
  rw [C58_accepts_partial hd hn] at hp
  injection hp with hp
  injection hp with hp
  injection hp with hp1 hp2
  subst hp1
  have hp2 : n = n' := by omega
  subst hp2
  rw [hw] at hb
  have hkq : (k : Rat) < 2 ^ 21 := by exact_mod_cast hk'
  obtain ⟨b1, b2⟩ := abs_le.mp hb
  have l1 : (n : Rat) < k + 1 := by linarith
  have l2 : (k : Rat) < n + 1 := by linarith
  have l1' : n < k + 1 := by exact_mod_cast l1
  have l2' : k < n + 1 := by exact_mod_cast l2
  omega

example : Text.repr .milli 2500 = .ok "3s".toList ∧ Text.repr .base 90 = .ok "90s".toList ∧ Text.repr .hour 72 = .ok "3d".toList := by decide +kernel

/-- The documentation (`time_repr.hpp:31-33`) lists hours, but no time is ever written in hours. -/
theorem C86_hours_counterexample (m : Mag) {v : Int} {text : List Char} (hv : 0 ≤ v) (hk : m.per .micro * (v : Rat) ≤ 2 ^ 61) (h : Text.repr m v = .ok text) :
    text.getLast? ≠ some 'h' := by
  obtain ⟨t, u, n, e, ⟨ds, rfl, -⟩, hc, -⟩ := C86_repr_partial m hv hk
  rw [e] at h
  cases h
  cases u <;> simp_all [Mag.text, Chosen]

example : Text.repr .hour 5 = .ok "300m".toList := by decide +kernel

/-- C86 is false for negative times: they are written in microseconds, and `parse_time` throws on the text. -/
theorem C86_negative_counterexample : Text.repr .base (-5) = .ok "-5000000us".toList ∧ parseTime "-5000000us".toList = .error .exception := by decide +kernel

end Spine
