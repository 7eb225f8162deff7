import Verif.Model.Logging
import Verif.Props.Text
/-!
# C59: log messages
-/

namespace Spine

open Logging

/-- The buffer holds as much of the text as fits, and a NUL. -/
def Filled (buf text : List Char) : Prop := ∃ rest, buf = text.take (buf.length - 1) ++ '\x00' :: rest

theorem snprintf_filled {buf text more : List Char} (h : Filled buf text ∨ text = []) (hpos : 0 < buf.length) (hl : text.length ≤ buf.length) :
    ∃ buf', snprintf buf text.length (usub buf.length text.length) more = .ok (buf', more.length) ∧ buf'.length = buf.length ∧ Filled buf' (text ++ more) := by
  rw [usub, if_pos hl, snprintf, if_neg (by omega)]
  by_cases he : text.length = buf.length
  · rw [if_pos (by omega)]
    refine ⟨buf, rfl, rfl, ?_⟩
    rcases h with ⟨rest, h⟩ | rfl
    · refine ⟨rest, ?_⟩
      rw [List.take_append_of_le_length (by omega)]
      exact h
    · rw [List.length_nil] at he; omega
  · have hlt : text.length < buf.length := by omega
    have hpre : buf.take text.length = text := by
      rcases h with ⟨rest, h⟩ | rfl
      · rw [List.take_of_length_le (by omega : text.length ≤ buf.length - 1)] at h
        rw [h, List.take_left']
        rfl
      · rfl
    have hw : (more.take (buf.length - text.length - 1) ++ ['\x00']).length ≤ buf.length - text.length := by simp; omega
    rw [if_neg (by omega)]
    simp only
    rw [if_neg (by omega)]
    have hlen : (buf.take text.length ++ (more.take (buf.length - text.length - 1) ++ ['\x00']) ++
        buf.drop (text.length + (more.take (buf.length - text.length - 1) ++ ['\x00']).length)).length = buf.length := by
      rw [List.length_append, List.length_append, List.length_drop, List.length_take]
      omega
    refine ⟨_, rfl, hlen, buf.drop (text.length + (more.take (buf.length - text.length - 1) ++ ['\x00']).length), ?_⟩
    rw [hlen, hpre, List.take_append, List.take_of_length_le (by omega : text.length ≤ buf.length - 1), show buf.length - text.length - 1 = buf.length - 1 - text.length by omega]
    simp

theorem cstring_filled {buf text : List Char} (h : Filled buf text) (h0 : '\x00' ∉ text) : cstring buf = .ok (text.take (buf.length - 1)) := by
  obtain ⟨rest, h⟩ := h
  generalize buf.length - 1 = n at h
  subst h
  rw [cstring, if_pos (by simp), List.takeWhile_append_of_pos]
  · simp
  · intro c hc
    rw [decide_eq_true_iff]
    rintro rfl
    exact h0 (List.mem_of_mem_take hc)

/-- The text of a message. -/
def message (overload : Bool) (ms : Int) (level : Level) (filename : List Char) (line : Int) (function body : List Char) : List Char :=
  (if overload then [] else header ms level) ++ body ++ if level = .debug then location filename line function else []

theorem header_length (ms : Int) (level : Level) : (header ms level).length ≤ 20 := by
  have h1 : (currentTime ms).length ≤ 10 := by
    have hb : (ms % 2 ^ 32).toNat < 10 ^ 10 := by omega
    have := decimalNat_length (k := 9) hb
    rw [currentTime]
    simp only [List.length_append, List.length_replicate]
    omega
  have h2 : (levelName level).length ≤ 4 := by cases level <;> decide
  simp only [header, List.length_append, List.length_cons]
  simp
  omega

theorem fillHeader_spec {overload : Bool} {stack : List Char} {ms : Int} {level : Level} (hsize : 20 ≤ stack.length) :
    ∃ b, fillHeader overload stack ms level = .ok (b, (if overload then [] else header ms level).length) ∧ b.length = stack.length ∧
      (Filled b (if overload then [] else header ms level) ∨ (if overload then [] else header ms level) = []) := by
  cases overload with
  | true => exact ⟨stack, rfl, rfl, .inr rfl⟩
  | false =>
    obtain ⟨b, e, h1, h2⟩ := snprintf_filled (buf := stack) (text := []) (more := header ms level) (.inr rfl) (by omega) (by simp)
    exact ⟨b, e, h1, .inl h2⟩

/-- C59: what is printed is the message, cut to the size of the buffer, and nothing is written outside of the buffer, for any buffer of at least 20
characters. Missing: messages of level DEBUG that do not fit even without the location
(`C59_debug_counterexample`). -/
theorem C59_print_partial {overload : Bool} {stack filename function body : List Char} {ms line : Int} {level : Level} (hsize : 20 ≤ stack.length)
    (hfit : level ≠ .debug ∨ ((if overload then [] else header ms level) ++ body).length ≤ stack.length) (hn : '\x00' ∉ message overload ms level filename line function body) :
    print overload stack ms level filename line function body = .ok ((message overload ms level filename line function body).take (stack.length - 1)) := by
  obtain ⟨b1, e1, l1, f1⟩ := fillHeader_spec (overload := overload) (ms := ms) (level := level) hsize
  have hh : (if overload then [] else header ms level).length ≤ b1.length := by
    have := header_length ms level
    cases overload
    · simp; omega
    · simp
  obtain ⟨b2, e2, l2, f2⟩ := snprintf_filled (buf := b1) (more := body) f1 (by omega) hh
  rw [print, fill, e1, res_bind_ok, fillRest]
  simp only [e2, res_bind_ok]
  unfold message at hn ⊢
  generalize (if overload then [] else header ms level) = hd at *
  by_cases hd' : level = .debug
  · obtain ⟨b3, e3, l3, f3⟩ := snprintf_filled (buf := b2) (text := hd ++ body) (more := location filename line function) (.inl f2) (by omega)
      (by rw [l2, l1]; exact hfit.resolve_left (fun h => h hd'))
    rw [if_pos hd'] at hn ⊢
    rw [List.length_append, l2] at e3
    rw [if_pos hd', e3]
    simp only [res_bind_ok, res_pure]
    rw [cstring_filled f3 hn, l3, l2, l1]
  · rw [if_neg hd'] at hn ⊢
    rw [if_neg hd', res_pure, res_bind_ok]
    rw [List.append_nil] at hn ⊢
    rw [cstring_filled f2 hn, l2, l1]

/-- C59 is false for long messages of level DEBUG: once header and message exceed the buffer, whatever the location, the write begins outside of it, with
a size that has wrapped around. -/
theorem C59_debug_counterexample {overload : Bool} {stack filename function body : List Char} {ms line : Int} (hsize : 20 ≤ stack.length)
    (h : stack.length < ((if overload then [] else header ms .debug) ++ body).length) : print overload stack ms .debug filename line function body = .error .ub := by
  obtain ⟨b1, e1, l1, f1⟩ := fillHeader_spec (overload := overload) (ms := ms) (level := .debug) hsize
  have hh : (if overload then [] else header ms .debug).length ≤ b1.length := by
    have := header_length ms .debug
    cases overload
    · simp; omega
    · simp
  obtain ⟨b2, e2, l2, -⟩ := snprintf_filled (buf := b1) (more := body) f1 (by omega) hh
  rw [print, fill, e1, res_bind_ok, fillRest]
  simp only [e2, res_bind_ok, if_true]
  rw [List.length_append] at h
  rw [snprintf, if_pos (by omega)]
  rfl

/-- A message of 300 characters with the default buffer size is cut at level INFO; the debug message "ok" is complete. -/
example : (print false (List.replicate 256 'x') 1234 .info [] 0 [] (List.replicate 300 'a')).map List.length = .ok 255 ∧
    print false (List.replicate 256 'x') 1234 .debug "a.cpp".toList 7 "f".toList "ok".toList = .ok "[00001234] [DBG] ok (a.cpp:7 f)".toList := by decide +kernel

theorem snprintf_over {buf text more : List Char} (h : buf.take text.length = text) (hl : text.length < buf.length) :
    ∃ buf', snprintf buf text.length (usub buf.length text.length) more = .ok (buf', more.length) ∧ buf'.length = buf.length ∧ Filled buf' (text ++ more) := by
  rw [usub, if_pos (by omega), snprintf, if_neg (by omega), if_neg (by omega)]
  have hw : (more.take (buf.length - text.length - 1) ++ ['\x00']).length ≤ buf.length - text.length := by simp; omega
  simp only
  rw [if_neg (by omega)]
  have hlen : (buf.take text.length ++ (more.take (buf.length - text.length - 1) ++ ['\x00']) ++
      buf.drop (text.length + (more.take (buf.length - text.length - 1) ++ ['\x00']).length)).length = buf.length := by
    rw [List.length_append, List.length_append, List.length_drop, List.length_take]
    omega
  refine ⟨_, rfl, hlen, buf.drop (text.length + (more.take (buf.length - text.length - 1) ++ ['\x00']).length), ?_⟩
  rw [hlen, h, List.take_append, List.take_of_length_le (by omega : text.length ≤ buf.length - 1), show buf.length - text.length - 1 = buf.length - 1 - text.length by omega]
  simp

/-- C59: if `vsnprintf` reports an error, a message of level DEBUG with a header is the header without its last character (a space) and the location, cut to the size of the
buffer; nothing is written outside of it. Missing: `C59_error_counterexample`, and other levels, where what follows the header is unspecified. -/
theorem C59_error_partial {stack filename function rest : List Char} {ms line : Int} (hsize : 20 ≤ stack.length) (hrest : rest.length = stack.length - (header ms .debug).length)
    (hn : '\x00' ∉ header ms .debug ++ location filename line function) :
    printFailed false stack ms .debug filename line function rest = .ok (((header ms .debug).dropLast ++ location filename line function).take (stack.length - 1)) := by
  obtain ⟨b, e, l, f⟩ := fillHeader_spec (overload := false) (stack := stack) (ms := ms) (level := .debug) hsize
  simp only [Bool.false_eq_true, if_false] at e f
  have hl := header_length ms .debug
  have hpos : 0 < (header ms .debug).length := by simp [header]
  have ht : b.take (header ms .debug).length = header ms .debug := by
    rcases f with ⟨r, f⟩ | f
    · by_cases hfull : (header ms .debug).length ≤ b.length - 1
      · rw [List.take_of_length_le hfull] at f
        rw [f, List.take_left']
        rfl
      · -- the header fills the buffer: only possible with all 20 characters, which a debug header does not have
        exfalso
        have h3 : (header ms .debug).length ≤ 19 := by
          have h1 : (currentTime ms).length ≤ 10 := by
            have hb : (ms % 2 ^ 32).toNat < 10 ^ 10 := by omega
            have := decimalNat_length (k := 9) hb
            rw [currentTime]
            simp only [List.length_append, List.length_replicate]
            omega
          simp only [header, levelName, List.length_append, List.length_cons]
          simp
          omega
        omega
    · rw [f] at hpos; simp at hpos
  have hlen : (b.take (header ms .debug).length ++ rest).length = stack.length := by
    rw [ht, List.length_append, hrest]; omega
  have hu : usub (header ms .debug).length 1 = (header ms .debug).dropLast.length := by rw [usub, if_pos (by omega)]; simp
  obtain ⟨b', e', l', f'⟩ := snprintf_over (buf := b.take (header ms .debug).length ++ rest) (text := (header ms .debug).dropLast)
    (more := location filename line function) (by
      rw [ht, List.take_append_of_le_length (by simp)]
      simp [List.dropLast_eq_take]) (by rw [hlen]; simp; omega)
  have hn' : '\x00' ∉ (header ms .debug).dropLast ++ location filename line function := by
    intro hm
    rcases List.mem_append.mp hm with hm | hm
    · exact hn (List.mem_append_left _ (List.mem_of_mem_dropLast hm))
    · exact hn (List.mem_append_right _ hm)
  simp only [printFailed, e, res_bind_ok, if_true, hu, e']
  rw [cstring_filled f' hn', l', hlen]

/-- C59: without a header, that is with `SPN_LOG_OVERLOAD`, the location is then written in front of the buffer. -/
theorem C59_error_counterexample {stack filename function rest : List Char} {ms line : Int} (hsize : stack.length + 1 < sizeMod) (hrest : rest.length = stack.length) :
    printFailed true stack ms .debug filename line function rest = .error .ub := by
  have hu : usub 0 1 = sizeMod - 1 := by rw [usub, if_neg (by omega)]; omega
  simp only [printFailed, fillHeader, if_true, res_bind_ok, hu, List.take_zero, List.nil_append]
  rw [snprintf, if_pos (by omega)]
  rfl

/-- An encoding error in a debug message. -/
example : printFailed false (List.replicate 40 'x') 1234 .debug "a.cpp".toList 7 "f".toList (List.replicate 23 'y') = .ok "[00001234] [DBG] (a.cpp:7 f)".toList := by
  decide +kernel

/-- C59: a message is printed if and only if its level is not above the current one. -/
theorem C59_level {overload : Bool} {current level : Level} {stack filename function body : List Char} {ms line : Int} :
    (level.num ≤ current.num → log overload current stack ms level filename line function body =
      (print overload stack ms level filename line function body).map some) ∧
    (current.num < level.num → log overload current stack ms level filename line function body = .ok none) := by
  constructor
  · intro h
    rw [log, isLoggable, decide_eq_true h, if_pos rfl]
    cases print overload stack ms level filename line function body <;> rfl
  · intro h
    rw [log, isLoggable, decide_eq_false (by omega)]
    rfl

end Spine
