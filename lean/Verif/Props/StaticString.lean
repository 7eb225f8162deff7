import Verif.Model.StaticString
import Verif.Props.Text
/-!
# C102, C103: `StaticString`
-/

namespace Spine
namespace StaticString

/-- A string as its member functions leave it. -/
def Valid (s : StaticString) : Prop := s.chars.length ≤ s.capacity

theorem resized_length (cs : List Char) (n : Nat) : (resized cs n).length = n := by
  simp [resized]; omega

theorem resized_of_le {cs : List Char} {n : Nat} (h : n ≤ cs.length) : resized cs n = cs.take n := by
  simp [resized, Nat.sub_eq_zero_of_le h]

/-- C102: the string is created with the size of its capacity; `set_size` gives it the size asked for, keeps the characters and fills up with NUL; it never
grows beyond the capacity: debug builds fail an assertion, release builds cut. -/
theorem C102_size (room : Nat → Nat) (s : StaticString) (n : Nat) (b : Build) : (create room n).size = (create room n).capacity ∧
    (n ≤ s.capacity → ∃ s', s.setSize b n = .ok s' ∧ s'.size = n ∧ s'.capacity = s.capacity ∧
      (∀ i (c : Char), i < n → s.chars[i]? = some c → s'.chars[i]? = some c) ∧ (∀ i, s.size ≤ i → i < n → s'.chars[i]? = some '\x00')) ∧
    (s.capacity < n → s.setSize .debug n = .error .assertFailed ∧ ∃ s', s.setSize .release n = .ok s' ∧ s'.size = s.capacity ∧ s'.capacity = s.capacity) := by
  refine ⟨by simp [create, size, resized_length], ?_, ?_⟩
  · intro h
    refine ⟨⟨resized s.chars n, s.capacity⟩, ?_, resized_length _ _, rfl, ?_, ?_⟩
    · rw [setSize, decide_eq_true h, spnAssert_true, res_bind_ok, Nat.min_eq_left h]
      rfl
    · intro i c hi hc
      have hl : i < s.chars.length := (List.getElem?_eq_some_iff.mp hc).1
      simp only [resized]
      rw [List.getElem?_append_left (by simp; omega), List.getElem?_take_of_lt hi, hc]
    · intro i hi hn
      simp only [resized]
      unfold size at hi
      rw [List.getElem?_append_right (by simp; omega), List.getElem?_replicate, if_pos (by simp; omega)]
  · intro h
    refine ⟨?_, ⟨resized s.chars s.capacity, s.capacity⟩, ?_, resized_length _ _, rfl⟩
    · rw [setSize, decide_eq_false (by omega)]; rfl
    · rw [setSize, spnAssert_release, res_bind_ok, Nat.min_eq_right h.le]; rfl

/-- C102: what is written to `data(n)` is what the string holds, for a text of `n` characters that fits. -/
theorem C102_write (b : Build) {s : StaticString} {text : List Char} (h0 : text ≠ []) (h : text.length ≤ s.capacity) :
    s.write b text.length text = .ok ⟨text, s.capacity⟩ := by
  have hl : 0 < text.length := List.length_pos_iff.mpr h0
  rw [write, data, if_pos hl, setSize, decide_eq_true h, spnAssert_true, res_bind_ok, Nat.min_eq_left h, res_pure, res_bind_ok]
  simp only [resized_length]
  rw [if_pos le_rfl, List.drop_eq_nil_of_le (by rw [resized_length]), List.append_nil]
  rfl

/-- C102: over all calls, the capacity stays the same (the memory is allocated once) and the size stays within. -/
theorem C102_capacity {b : Build} {cs : List Call} {s s' : StaticString} (hv : s.Valid) (h : cs.foldlM (call b) s = .ok s') : s'.capacity = s.capacity ∧ s'.Valid := by
  have set : ∀ {t t' : StaticString} {n}, t.setSize b n = .ok t' → t'.capacity = t.capacity ∧ t'.Valid := by
    intro t t' n e
    obtain ⟨u, _, e⟩ := res_bind e
    cases e
    refine ⟨rfl, ?_⟩
    simp only [Valid, resized_length]
    exact Nat.min_le_right _ _
  have one : ∀ {t t' : StaticString} {c}, t.Valid → t.call b c = .ok t' → t'.capacity = t.capacity ∧ t'.Valid := by
    intro t t' c ht e
    cases c with
    | setSize n => exact set e
    | write n text =>
      obtain ⟨u, hu, e⟩ := res_bind e
      have hd : u.capacity = t.capacity ∧ u.Valid := by
        unfold data at hu
        split at hu
        · exact set hu
        · cases hu; exact ⟨rfl, ht⟩
      split at e
      · next hl =>
        cases e
        refine ⟨hd.1, ?_⟩
        have := hd.2
        simp only [Valid, List.length_append, List.length_drop] at this ⊢
        omega
      · cases e
    | lstrip d =>
      obtain ⟨n, hn, e⟩ := res_bind e
      have e' : setSize b ⟨t.chars.drop n ++ t.chars.drop (t.chars.length - n), t.capacity⟩ (t.chars.length - n) = .ok t' := e
      have h := set e'
      exact h
    | rstrip d =>
      obtain ⟨n, hn, e⟩ := res_bind e
      exact set e
  induction cs generalizing s with
  | nil => cases h; exact ⟨rfl, hv⟩
  | cons c cs ih =>
    rw [List.foldlM_cons] at h
    obtain ⟨t, ht, h⟩ := res_bind h
    obtain ⟨h1, h2⟩ := one hv ht
    obtain ⟨h3, h4⟩ := ih h2 h
    exact ⟨h3.trans h1, h4⟩

example : ([.write 5 " ab  ".toList, .lstrip [' '], .rstrip [' '], .setSize 3].foldlM (call .debug) (create (fun _ => 15) 10)) = .ok ⟨['a', 'b', '\x00'], 15⟩ := by
  decide +kernel

/-- C103: stripping removes exactly the delimiters at the beginning or at the end. Missing: strings of nothing but delimiters, such as the empty one
(`C103_blank_counterexample`). -/
theorem C103_strip_partial (b : Build) {s : StaticString} {d : List Char} (hv : s.Valid) (h : ∃ c ∈ s.chars, c ∉ d) :
    (∃ r, s.lstrip b d = .ok ⟨r, s.capacity⟩ ∧ IsLstrip s.chars d r) ∧ ∃ r, s.rstrip b d = .ok ⟨r, s.capacity⟩ ∧ IsRstrip s.chars d r := by
  unfold Valid at hv
  constructor
  · obtain ⟨n, e, h1, h2, h3⟩ := stripCount_spec h
    refine ⟨s.chars.drop n, ?_, s.chars.take n, (List.take_append_drop n _).symm, h2, h3⟩
    rw [lstrip, e, res_bind_ok, setSize, decide_eq_true (by simp only; omega), spnAssert_true, res_bind_ok]
    simp only
    rw [Nat.min_eq_left (by omega), resized_of_le (by simp), List.take_append_of_le_length (by simp), List.take_of_length_le (by simp)]
    rfl
  · have h' : ∃ c ∈ s.chars.reverse, c ∉ d := by
      obtain ⟨c, hc, hd⟩ := h
      exact ⟨c, by simpa using hc, hd⟩
    obtain ⟨n, e, h1, h2, h3⟩ := stripCount_spec h'
    rw [List.length_reverse] at h1
    refine ⟨s.chars.take (s.chars.length - n), ?_, s.chars.drop (s.chars.length - n), (List.take_append_drop _ _).symm, ?_, ?_⟩
    · rw [rstrip, e, res_bind_ok, setSize, decide_eq_true (by omega), spnAssert_true, res_bind_ok, Nat.min_eq_left (by omega), resized_of_le (by omega)]
      rfl
    · intro c hc
      apply h2 c
      rw [List.take_reverse]
      simpa using hc
    · intro c hc
      apply h3 c
      rw [List.drop_reverse, List.head?_reverse]
      exact hc

example : lstrip .debug ⟨"  ab ".toList, 15⟩ [' '] = .ok ⟨"ab ".toList, 15⟩ ∧ rstrip .debug ⟨"  ab ".toList, 15⟩ [' '] = .ok ⟨"  ab".toList, 15⟩ := by decide +kernel

/-- C103 is false for strings of nothing but delimiters: the iterators run out of the string. -/
theorem C103_blank_counterexample (b : Build) {s : StaticString} {d : List Char} (h : ∀ c ∈ s.chars, c ∈ d) : s.lstrip b d = .error .ub ∧ s.rstrip b d = .error .ub := by
  have key : ∀ s : List Char, (∀ c ∈ s, c ∈ d) → Text.stripCount d s = .error .ub := by
    intro s
    induction s with
    | nil => intro _; rfl
    | cons c cs ih =>
      intro h
      rw [Text.stripCount, if_pos (by simpa using h c (by simp)), ih (fun x hx => h x (by simp [hx]))]
      rfl
  rw [lstrip, rstrip, key _ h, key _ (fun c hc => h c (by simpa using hc))]
  exact ⟨rfl, rfl⟩

/-- C103: `starts_with`, and `ends_with` for a needle that is not longer than the string. -/
theorem C103_ends_partial (s : StaticString) (n : List Char) : (∃ r, s.startsWith n = .ok r ∧ (r = true ↔ ∃ t, s.chars = n ++ t)) ∧
    (n.length ≤ s.size → ∃ r, s.endsWith n = .ok r ∧ (r = true ↔ ∃ t, s.chars = t ++ n)) :=
  ⟨C57_starts s.chars n, fun h => C57_ends_partial h⟩

/-- C103 is false for `ends_with` with a longer needle: an exception is thrown. -/
theorem C103_ends_counterexample : (⟨['a'], 15⟩ : StaticString).endsWith ['b', 'a'] = .error .exception :=
  C57_long_counterexample (s := ['a']) (n := ['b', 'a']) (by decide) (by have := sizeMod_ge; simp only [List.length]; omega)

end StaticString
end Spine
