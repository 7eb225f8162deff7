# Formal model of Spine

Source: `/repo` (s-t-a-n/Spine at the pinned commit), read as text only. Nothing was compiled or run.

## Trusted base

* Lean 4.33.0's kernel and the three standard axioms `propext`, `Classical.choice`, `Quot.sound`.
  No axioms are added; no `sorry`, `admit`, `native_decide`, `bv_decide`. The last section lists the axioms of every theorem.
* The reading of C++ described below: each model definition cites the file and lines it was written from.
* Not trusted, because proved: all lemmas and property theorems.

## Conventions

* `Verif/Core` – outcomes. A C++ call returns `Res α`, i.e. a value or a `Fault`:
  `ub` (undefined behaviour such as an out-of-bounds access), `assertFailed` (an `spn_assert` failed
  in a debug build; `HAL::halt` does not return on the targets), `exception` (`spn::throw_exception`
  or a standard library exception), `fuel` (a loop did not end within the given number of turns; theorems about
  termination exclude it). Asserts take a `Build` argument (`debug`/`release`), because they
  compile to nothing in release builds; theorems quantify over both. A build is one or the other as a whole;
  `zephyr/CMakeLists.txt:44` defines `DEBUG_SPINE` only for the library's own sources, so templates may be compiled both ways there, which is not modelled.
* `Verif/Model` – the code, function by function. `Verif/Spec` – small independent specifications.
  `Verif/Proofs` – lemmas. `Verif/Props` – the property theorems, `Cxx_...`, each with an `example`
  that instantiates its hypotheses on a concrete non-trivial case.
* `size_t` is 32 or 64 bits wide; the theorems hold for both (`sizeMod` is Lean's `USize.size`, of which only these two values are known). Where the code can wrap, the model wraps explicitly modulo `sizeMod`.
* Where the code violates a property, the violation is a theorem `Cxx_..._counterexample`, and the
  part which does hold is `Cxx_..._partial`. A property with any `_partial` theorem has the status `partial` in
  `MANIFEST.json`, also if everything that is true about it is proved.

## What is modelled

| Code | Model | Properties |
|---|---|---|
| `structure/ringbuffer.hpp` | `RingBuffer`, `RingInterrupt`, `RingCopies`, `RingOwn` | C01–C06, C136, C151, C162, C174, C193, C200, C202, C212, C213, C214 |
| `structure/linebuffer.{hpp,cpp}` | `LineBuffer`, `LineLoops`, `DelimiterView` | C07–C11, C137, C168, C179, C202 |
| `io/stream/*`, `MockUART`, `ArduinoUART` | `Stream`, `UnreliablePort`, `CommandServer`, `Exchange` (clients) | C12–C18, C114, C115, C134, C137, C141, C159, C161, C166, C202 |
| `structure/vector.hpp` | `Vector`, `VectorObjects`, `VectorOwn`, `VectorInherited` | C19–C25, C66, C118–C121, C133, C140, C177, C195, C200 |
| `structure/array.hpp` | `Array` | C26, C27, C67–C72 |
| `structure/pool.hpp`, `structure/stack.hpp` | `Pool`, `PoolCopies` | C28–C30, C64, C73, C128 |
| `structure/units/primitives/unit.hpp` with a 64-bit or a 32-bit integer | `Units`, `Narrow` | C31, C32, C124–C127, C145, C163 |
| `structure/time/timers.{hpp,cpp}` | `Timers` | C33, C34, C74, C75, C190 |
| `eventsystem/*` | `Pipeline`, `EventSystem`, `EventThrow`, `EventData`, `HandlerLink` | C35–C40, C65, C110, C122, C123, C130, C146, C149, C160, C173, C178, C183, C194–C196, C190 |
| `controller/sr_latch.*` | `Latch`, `FilteredLatch` | C41–C43, C148, C156, C185, C189, C190, C191, C204, C206, C209 |
| `controller/pid.*`, `controller/implementations/pid/*` | `Pid`, `PidCopies`, `Fused` (contracted sums), `Tuner`, `Autotune` | C44–C47, C76–C81, C112, C113, C138, C142, C143, C147, C152–C154, C171, C180, C184, C187, C188, C190, C198–C201, C203–C206, C208, C211 |
| `filter/*` | `Fused`, `Filter`, `BandWidth`, `FilterSlots` (with what is assumed of `std::vector`) | C48–C51, C82, C111, C135, C158, C167, C170, C172, C175, C180, C185, C186, C189, C198–C200, C204, C206, C207, C210, C211 |
| `structure/time/schedule.*` | `Schedule`, `ScheduleLoop` | C52, C53, C157 |
| `structure/result.hpp` | `Result`, `ResultObjects` | C54, C55, C87, C88, C155 |
| `core/utils/string.*`, `core/utils/time_repr.*` | `Text` | C56–C58, C85, C86 |
| `core/logging.*` | `Logging` | C59 |
| `structure/time/datetime.*` | `DateTime`, `DateTimeObjects`, `Strftime` (with what is assumed of `gmtime_r`, `mktime` and `strftime`) | C60, C83, C84, C132, C139, C150 |
| `platform/gpio.*`, inputs and outputs of `platform/implementations/arduino.hpp`, `MappedRange::Percentage` and `Permillage` | `Gpio`, `OutputPin` (with what is assumed of `pinMode`), `FadeTime`, `AnalogueChain` | C61, C94, C95, C169, C176, C182 |
| `unit.hpp` with `float`, `compound_unit.hpp`, `units/time.hpp`, `units/temperature.hpp` | `Compound`, `UnitProduct`, `Simplify` | C62, C89–C93, C131, C164, C181 |
| `core/utils/concatenate.hpp`, `core/meta/unique_type_variant.hpp` | `Meta` | C63 |
| `platform/platform.hpp`, clocks, delays, log filter and serial port of the platforms | `Platform`, `Sleep`, `Delay` | C96–C101, C129, C165, C197 |
| `structure/static_string.*` | `StaticString` | C102, C103 |
| `structure/point.hpp` | `Point` | C116, C117, C144 |
| `units/primitives/magnitudes.hpp` with all prefixes | `Magnitudes` | C104, C105 |
| `core/exception.*`, `core/debugging.hpp`, `halt` of the platforms | `Exception` | C106, C107; assertions of all classes: C192 |
| `ArduinoInterrupt` of `platform/implementations/arduino.hpp` | `Interrupt` | C108, C109, C199, C201 |

## What is not modelled

* `Stack` and `FilterStack::detach_filter` do not compile if instantiated; the base class members of `DigitalInput`,
  `AnalogueInput` and the base class `Interrupt` that cast a pointer to an object do not compile if used. `Stack`'s member functions are modelled as
  written.
* `lux` names a tag as its magnitude (`units/illuminance.hpp`), so its arithmetic does not compile.
* `src/main.cpp`, examples, tests, `arduino_without_sugar.hpp`, `free_memory`, `ENUM_IDX`.
* What the systems below do with calls: the Arduino core, Zephyr, the C library (`mktime`, `gmtime_r`, conversions of `strftime` beyond those of `Strftime`, `strtof`,
  `vsnprintf`), `malloc` failure.
* Threads and interrupts running at the same time as the modelled code. The library has no synchronisation.

## Assumptions

* Integers: `size_t` is 32-bit or 64-bit, `time_t` is 64-bit except in `Narrow` (C163) and `ofTimestamp32` (C84), the `unsigned long` of `simplify` is 64-bit except in `Simplify` (C164), `int` is 32-bit, `long` is either (C84).
* Floats: IEEE binary32, round to nearest even, `FLT_EVAL_METHOD` 0, no fused multiply-add (except in C180, where any of the places in the PID and in `MappedRange` may be contracted), no fast-math. Arithmetic for `Rat` is the exact
  counterpart; theorems say which one they are about. `SPN_PLATFORM_CAP_DOUBLE` is off.
* `pow` in `BandPass` is abstract, as it only occurs in the limits; in C167 it is the exact power of real numbers.
* The clock stands still during a call unless a theorem says otherwise (C35, C75 have counterexamples with a ticking clock).
* Events: handles given out by the event system are not copied, and events are not changed after they were scheduled.
* PID: objects are not moved after construction (they hold pointers to their own members), and the user does not write the output variable.
* Characters are ASCII, texts of `std::string_view` arguments are lists of characters; the memory after a view is an explicit argument
  where the code reads it (C85).
* A failed assertion or thrown exception ends the call (`Fault`). That is so on Arduino and Zephyr, and on the native platform if the handler throws or stops;
  otherwise execution goes on after it (C106), which no other theorem covers. Exceptions thrown by event handlers are the subject of C178.
* The Arduino core's `attachInterrupt` ignores numbers of no line (C108).
* The serial hardware below `ArduinoUART` keeps received and sent bytes in two queues; a write to a full queue waits (C114).
* What a move leaves of a value in a `Result` (C155) is a parameter, for each type.
* A `std::string` within its capacity does not reallocate; its capacity for a length is arbitrary (C102).
* `malloc` does not hand out an address again while a dangling pointer to it may exist.

## Method per group

| Ids | How it is proved |
|---|---|
| C01–C06, C136, C151, C162, C174, C193 | refinement to a bounded queue (`List`), induction over histories; statement-by-statement execution for interrupts |
| C07–C11, C137, C168, C179 | refinement; spec = first delimiter position in a list |
| C12–C18, C114, C115, C134, C141, C159, C161, C166 | loop invariants over the abstract queues, induction over schedules; transactions as a state machine |
| C19–C25, C64, C66, C73, C128, C133, C177 | refinement to `List`; reference counts as ghost state |
| C26–C27, C67–C72, C118–C121, C140 | heap of allocations, invariant by induction over histories |
| C28–C30 | search lemma; measure for termination |
| C31–C34, C74, C75, C124–C127, C145, C163, C190 | IEEE rounding over `Rat`: exactness below 2^24, error bounds above, concrete witnesses; induction over polling schedules |
| C35–C40, C65, C122, C123, C130, C146, C149, C160, C178, C183, C194–C196 | refinement to a stable priority queue, induction over histories and nesting depth; C178 by one induction over sequences of basic steps; C183 counts calls in a busy period |
| C198 | three runs side by side, related by a linear combination, exact arithmetic |
| C199 | the state after the call is computed and the call made on it, for every state |
| C200 | the contents as a list after the two calls, from the refinements of C01 and C20; an invariant that an empty vector lies at its first slot; the linear equation of C50 solved both ways |
| C201 | each pair of calls commutes in every state; a permutation is a series of exchanges of neighbours |
| C202 | cutting once, by induction on the first piece in any state; then induction on the number of pieces |
| C203 | an invariant (value, setpoint and last reading agree; the sum is the output) kept by every operation, by induction; with floats every product with the zero error is a zero and adding it rounds to the same number |
| C204 | a relation between two controllers (gains, readings and setpoints of opposite sign, sums and outputs alike), kept by every call; rounding is symmetric, so each float operation keeps it, also for infinities and NaN |
| C205 | simulation by a controller without a clock, by induction on the history, in any arithmetic |
| C206 | each float operation keeps the relation 'same number up to the sign of zero'; simulation for controllers, latches, filters and stacks of them |
| C207 | the count is a closed form, min of the number of samples and 2^24, by induction; rounding of 2^24 + 1 |
| C208 | two runs side by side; clamping never enlarges a difference; rounding errors from C138 |
| C209 | changes alternate and each is followed by its minimal time (C41); induction in steps of two changes |
| C210 | the age of the value is at most the count of rejections, by induction on the samples |
| C211 | the mean (C82) and the control law (C79) are symmetric in the earlier readings |
| C212 | the backlog is explained by a stretch of earlier rounds, whose surplus is at most the burst |
| C213 | induction over the series; the two contents one behind the other are a single queue |
| C214 | induction over the rounds; stored and kept elements are a single queue, which shrinks in every round without new elements |
| C192 | both builds in step: a relation between outcomes that is kept by sequencing and choices, `Proofs/Carries` |
| C41–C43, C148, C156, C191 | invariant by induction over readings; C191 an invariant of two latches |
| C171 | difference equations as polynomials acting on sequences, factored over the complex numbers; Jury's criterion for cubics |
| C44–C47, C76–C81, C112, C113, C138, C142, C143, C147, C152–C154, C180, C184, C187, C188 | bounds from comparisons only, so any rounding is covered; exact law in rational arithmetic; accumulated rounding errors by induction (C138), with one rounding or two at each place (C180); a quadratic form that shrinks with each step of the closed loop (C142), with errors fed back (C147); objects with pointers into each other (C152); every rounded operation is monotone (C188) |
| C48–C51, C82, C111, C135, C158, C167, C170, C175, C185, C186, C189 | EWMA with IEEE rounding, others exact or for any arithmetic, error bounds in C135; C111 by a bounded monotone sequence of floats; two runs related step by step (C175) |
| C52–C53, C157 | list search against a separate specification of a day; induction over the wakings |
| C54–C55, C87, C88, C155 | case analysis, induction over chains, types as codes |
| C56–C58, C85, C86, C103 | induction over texts; faults explicit |
| C59, C101 | buffer arithmetic |
| C60, C83, C84, C132, C139, C150 | Gregorian calendar: induction over days; scanner of `sscanf` |
| C61, C94, C95, C169, C176, C182 | induction over the loop and over histories; IEEE error analysis |
| C62, C89–C93, C164 | algebra over `Rat`, IEEE error bounds |
| C96–C100, C129, C165, C197 | induction over polls and delays |
| C102 | invariant over histories of calls |
| C104, C105, C131, C181 | relative errors of four IEEE roundings |
| C116, C117, C144 | algebra over the real numbers, Mathlib's Euclidean space; exact conditions for int overflow |
| C106–C110, C172, C173 | case analysis, induction over histories |

## Wrong programs

`seeded/LOG.jsonl` has one line per deliberate edit of a model definition, made in a copy outside of this repository. How to read it:

* `failed` lists the property theorems whose proof no longer goes through: the edited copy was rebuilt with every failing proof replaced by a hole, and a
  theorem counts as failed if it is such a proof or depends on one. So it says that the proof breaks, not that the theorem was shown to be false;
  a proof can also break because the shape of a definition changed. `failed_lemmas` lists the proofs that broke first.
* An edit that no theorem noticed is the interesting case. Then either the edit does not change what a user can observe, and the line says so,
  or a theorem was missing or too weak, and `tightened` names the one that was added or strengthened.
* Lines with `"batch": "auto"` come from a script that makes small edits (an operator, a constant, a condition, a dropped statement) of definitions one by one and
  stops at the first proof that fails, so `failed_lemmas` has only that one, and `failed` is empty if it is not itself a property theorem.
* Edits that do not type-check, in the definition or in another definition that uses it, are not logged.

## Where the code and the properties disagree

For every property that does not hold as stated: what is wrong, and what is proved instead. The theorems named `..._counterexample`
are proved for the code as it is.

* **C04** drop_last / drop_first remove exactly the requested elements. False as stated: drop_last/drop_first clear the full flag even when nothing is dropped, so dropping 0 (also the documented default 'all') on a full buffer makes it read as empty. Proved for drops of at least one element or on a non-full buffer; counterexamples proved. (`C04_drop_zero_on_full_counterexample`, `C04_drop_last_counterexample`)
* **C05** overrun_space counts the elements lost to rollover. overrun_space is exact for capacity >= 2 and histories of pushes and pops. False for capacity 1, where it is 0 after every such history (C05_capacity_one_counterexample), and after drop_last, whose number is subtracted modulo the number of values of size_t (C05_drop_last_exact, C05_drop_last_counterexample). What it is after any history, with drops and clears: C05_histories. (`C05_capacity_one_counterexample`, `C05_drop_last_counterexample`, `C05_overrun_capacity_one_counterexample`, `C05_overrun_drop_counterexample`)
* **C10** get_next_line_view shows the next line. The view is right exactly when the line does not wrap around the end of the storage, so always for capacities up to 2. For every capacity from 3 on there is a history after which it reads outside the buffer (C10_capacity_counterexample). (`C10_capacity_counterexample`, `C10_line_view_counterexample`)
* **C13** pull_in_data never destroys a complete line. A single pull keeps the line end within the buffer, and a polling loop that handles lines between pulls keeps lines; two pulls in a row without handling lose the line end (counterexample). (`C13_pull_twice_counterexample`)
* **C17** Aborting a transaction takes back the reply. Abort removes exactly the queued reply iff there was room in the output buffer when the transaction began (C17_abort_exact); with a full output buffer abort removes the output of other messages (counterexample). (`C17_abort_full_output_counterexample`)
* **C18** A transaction is finalized exactly once. Proved for all sequences of commit, abort and destruction, and for the object left behind by a move. Debug builds assert on the second finalize. False for a transaction that is overwritten by move assignment: its line is never consumed (counterexample). (`C18_move_assign_counterexample`)
* **C20** Vector::pop_back returns the last element. False for a single element whose window does not start at slot 0 (counterexample: pop_back returns an element that was already popped); C20_single_exact says what it returns for every vector with one element. Proved for every other state, and for whole histories that never take from the front. (`C20_pop_back_counterexample`)
* **C21** Vector::remove(i) removes the i-th element. False on full vectors (read past the end of the storage) and on windows not starting at slot 0, because the index is taken as that of a slot; C21_slot_exact and C21_outside_counterexample say what happens for every vector. Proved for windows at slot 0 with a free slot. (`C21_remove_full_counterexample`, `C21_remove_after_pop_counterexample`, `C21_remove_twice_counterexample`, `C21_outside_counterexample`)
* **C23** Vector operations never leave the storage. False for remove: C23_history_counterexample is a history within the preconditions that reads outside the storage, and C23_remove_exact says for every reachable vector and every element index exactly when remove does so. Every other operation within its precondition is free of undefined behaviour and failing assertions and keeps the vector reachable; remove at slot 0 with a free slot, too. (`C23_history_counterexample`)
* **C24** Shared pointers in a Vector keep exact reference counts. Exact counts for queue use and for back use; false for pop_back after pop_front and for clear (counterexamples). (`C24_pop_back_counterexample`, `C24_clear_counterexample`)
* **C25** Vector::front() and back() agree with the ends of the sequence. back() and peek_front() always; front() only if the window starts at slot 0 (counterexample after pop_front). (`C25_front_counterexample`)
* **C26** Array memory is never freed twice. For every reachable state and legal operation, and for whole histories. swap is covered between arrays that both own or both do not own their memory; two counterexamples show what swap does otherwise. (`C26_swap_counterexample`, `C26_swap_copy_counterexample`)
* **C27** Array reverse iteration visits every element. Non-const reverse and forward iteration proved for all sizes; false for const arrays, where rbegin() == rend() always. (`C27_const_reverse_counterexample`)
* **C29** Pool::acquire terminates. Partial: terminates for up to 65535 objects; diverges when 65536 or more are all in use, because the index is 16 bits. (`C29_acquire_diverges_counterexample`)
* **C30** Destroying a pool releases all its objects. Partial: true for at most one object; otherwise the loop bound shrinks as objects are removed, so the assertion fails in debug builds and half the references leak in release builds. (`C30_destroy_asserts_counterexample`, `C30_destroy_leaks_counterexample`)
* **C31** Kernel time arithmetic is exact. Partial: exact if the right operand is at most 2^24, with an error bound for all sizes; false above, because from_other() sends every right operand through a float even if the units are equal. (`C31_counterexample`, `C31_overflow_counterexample`)
* **C32** Kernel time conversion is exact. Partial: nearest integer up to 3,000,000, with an error bound for all sizes; false above (1 day = 86399992 ms) and in the direction of ties. (`C32_counterexample`, `C32_tie_counterexample`)
* **C33** An alarm fires at its deadline and stays fired. Partial: exact up to 2^24 ms of uptime, monotone and with an error bound at any time; false later (alarms fire early or late). (`C33_early_counterexample`, `C33_late_counterexample`)
* **C34** Interval timer rate and catch-up. Partial: exact up to 2^24 ms of uptime, with an error bound for one query at any time; false later. (`C34_early_counterexample`)
* **C35** The pipeline is always in deadline order, first-come first-served among equals. Partial: a pipeline behaves like a stable priority queue for delays up to 2^23 ms and a clock that stands still during a call. With a clock that ticks by up to d ms between the two readings of a comparison, no future is queued behind one due more than d ms later, and none is served d ms late (C35_ticks theorems), provided the new future's reading is made first or the tick is of 1 ms; counterexamples for delays above 2^24 ms, for ticks during push, and for unbounded disorder with the other order of the readings. (`C35_long_delay_counterexample`, `C35_tick_counterexample`, `C35_ticks_order_counterexample`)
* **C36** Scheduled events fire exactly once, never early, in order. Exactly-once holds for all delays, handlers and clocks, including handlers that attach handlers and call loop() again. On time, in order and nothing-left-behind hold up to 2^24 ms of uptime, with an error bound up to 2^40 ms; false later (an event fires 1 ms early). (`C36_early_counterexample`)
* **C38** Obtaining an event beyond capacity is handled. False: in every exhausted state schedule() and trigger() follow a null pointer (release) or fail an assertion (debug); also from a handler in a system of capacity 1. Partial: event() itself reports exhaustion. (`C38_schedule_counterexample`, `C38_trigger_counterexample`, `C38_handler_counterexample`)
* **C40** loop() sleeps no longer than allowed. Wakes no later than the next deadline up to 2^24 ms of uptime (error bound later). False for the configured maximum: a count of microseconds is compared with a count of milliseconds; the bound that does hold is 1000 times larger. (`C40_max_counterexample`)
* **C41** SRLatch respects minimal on and off times. Partial: the minimal times hold up to the rounding of the times through binary32 (exact up to 2^24 ms of uptime); a counterexample shows an early switch above that. (`C41_rounding_counterexample`)
* **C42** SRLatch respects the maximal on time. False as stated: readings above the high threshold restart the timer, so a latch that is fed often enough stays on for ever. Partial: the maximal time holds counted from the last reading that set the latch. (`C42_forever_counterexample`)
* **C43** SRLatch hysteresis. Band and direction theorems hold when the minimal times allow; false for a low reading while off, which restarts the off time and so delays the forced switching on. (`C43_low_counterexample`)
* **C44** PID output stays within its limits. Proved for any lawful arithmetic and for IEEE single precision, from initialize() on with limits in order. Limits that are not in order are silently ignored (counterexample). (`C44_order_counterexample`)
* **C45** PID recomputes once per sampling period. No change between computations; computations at least a sampling period apart up to the rounding of times (counterexample above 2^24 ms). (`C45_rounding_counterexample`)
* **C46** Changing the PID sampling time keeps the effective gains. False: the ratio of sampling times is computed with integer division, so gains change for every new time that is not a multiple of the old one; a shorter interval gives gains 0 and infinity. Partial: multiples. (`C46_shorter_counterexample`)
* **C47** PID auto-tuner drives only the configured outputs and finishes. Outputs and the number of cycles are proved for tuner and loop. False: autotune ends by setting 0 even outside the range; the sum over cycles-2 cycles is divided by cycles-1 (0/0 for one cycle). Partial: the value actually reported. (`C47_zero_counterexample`, `C47_average_counterexample`, `C47_single_counterexample`)
* **C48** EWMA stays between the extremes of its inputs. Proved in single precision for frames longer than 1 and samples up to half the largest float. False for frames of length at most 1 and for samples whose difference overflows. (`C48_one_counterexample`, `C48_short_counterexample`, `C48_overflow_counterexample`)
* **C49** BandPass rejects outliers only up to the limit. False after a forced acceptance, for a first sample outside an absolute band, at the sentinel value, after a first NaN, and the rejection counter overflows (undefined) if the filter throws. Partial: rejection after a sample in the band. (`C49_forced_counterexample`, `C49_absolute_counterexample`, `C49_sentinel_counterexample`, `C49_nan_counterexample`, `C49_overflow_counterexample`)
* **C50** MappedRange maps its input range linearly onto its output range. Exact arithmetic in full; in single precision monotonicity, the lower limit and the lower bound. False in single precision: the upper limit is only met up to rounding. (`C50_ieee_counterexample`, `C50_nan_counterexample`)
* **C51** Filter stack is the composition of its filters. Composition for all stateful filters. False: inverting twice in single precision, value() of an empty stack. Partial: value() for last filters that keep what they return, as those of the library do. (`C51_invert_counterexample`, `C51_assert_counterexample`, `C51_empty_counterexample`, `C51_null_counterexample`)
* **C52** Schedule::value_at. Proved for block lists the constructor accepts, with starts on the day. False if a block starts after the day: the constructor does not check this. (`C52_start_counterexample`)
* **C53** Schedule::start_of_next_block. Proved for blocks listed in the order of their starts; in any order the result is some start after t. False for other orders: the first listed later start is returned, not the earliest. For blocks with different starts it is right at all times iff they are listed in order (C53_exact). (`C53_order_counterexample`)
* **C54** Result chains short-circuit. False for a Result without a value and for types for which a copy is not a copy (C54_empty_counterexample, C54_copy_counterexample). (`C54_empty_counterexample`, `C54_copy_counterexample`)
* **C55** Result combinators. match is false for a Result without a value (C55_match_counterexample); everything else is proved for all types, states and functions. (`C55_match_counterexample`)
* **C56** String stripping. lstrip is right iff the text has a character that is no delimiter, rstrip iff its last character is none (C56_exact). Otherwise lstrip reads past the end, and rstrip removes characters from the front. (`C56_blank_counterexample`, `C56_rstrip_counterexample`)
* **C57** starts_with and ends_with. starts_with proved for all texts; ends_with for needles not longer than the text. False for longer needles: it throws. (`C57_long_counterexample`)
* **C58** parse_time accepts exactly number-plus-unit strings. Proved that it accepts and reads exactly the texts that denote at most INT_MAX units. False for a unit without a number and for larger numbers: it throws instead of giving nothing; which texts make it throw is characterised. (`C58_throw_counterexample`)
* **C59** Log messages stay inside the log buffer. False for level DEBUG: once header and message exceed the buffer, the location is written outside of it (C59_debug_counterexample); also if vsnprintf reports an error and there is no header, as -1 is added to a size_t (C59_error_counterexample; with a header see C59_error_partial). Proved for all other cases. (`C59_debug_counterexample`, `C59_error_counterexample`)
* **C61** Fading an output ends at the setpoint. False: with the default increment 0.1 and float, fading from 0 to 0.5 ends at 0.6 (C61_float_counterexample); from 0 to 0.25 it ends at 0.3 in exact arithmetic, too; small increments never end, increment 0 drives nothing. Proved: all values within [0,1] for float; within half an increment in exact arithmetic; in single precision, for increments from 1/512 on, fading ends, within one and a half increments and 2^-11 (C61_float_partial). C61_exact says for which distances fading ends at the setpoint in exact arithmetic. (`C61_end_counterexample`, `C61_float_counterexample`, `C61_endless_counterexample`, `C61_zero_counterexample`)
* **C63** Compile-time helpers. False for std::array arguments that do not end with a NUL (C63_array_counterexample); proved for any number of literals. (`C63_array_counterexample`)
* **C65** loop() terminates when handlers only schedule into the future. Partial: up to 2^24 ms of uptime, with handlers that do not call loop() themselves, the loop ends after the events due when it began; false later, when the clock is read as 1 ms ahead the loop never ends. (`C65_diverges_counterexample`)
* **C66** Destroying a Vector releases its elements. False: ~Array frees the memory without destroying the elements. The counterexample theorem shows it for every history; the partial theorem covers vectors emptied first. (`C66_destroy_leaks_counterexample`)
* **C67** Arrays free what they allocate. False for copy and move assignment onto an owning array (counterexamples), and only then: memory is left over iff that ever happened (C67_exact, over all histories). (`C67_move_assign_counterexample`, `C67_copy_assign_counterexample`)
* **C68** Copying an Array gives an independent array with equal contents. Equal contents proved; independence is false for every array with elements: a write to either shows in both (C68_shared), and a copy of an owner dangles when the owner is destroyed (C68_dangling). (`C68_alias_counterexample`, `C68_dangling_counterexample`)
* **C69** swap exchanges two Arrays. The contents are exchanged iff the sizes are equal (C69_exact): sizes are not exchanged. (`C69_swap_counterexample`)
* **C70** Moving an Array transfers its contents and leaves the source empty. Target proved; the source keeps its size over a null pointer (counterexample), so it is left empty iff it was empty (C70_exact). (`C70_moved_from_counterexample`)
* **C71** Iterator increment and decrement. Positions proved; the value of it++ is the position after the increment (counterexample for every iterator). (`C71_postfix_counterexample`, `C71_reverse_counterexample`)
* **C73** Stack::pop releases the popped element. Partial: the references owned are exactly those of the slots; false as stated, since pop leaves the pointer in its slot until it is overwritten. (`C73_pop_keeps_reference_counterexample`)
* **C74** IntervalTimer::future() is when the timer expires. Partial: false at the moment future() itself names, because expired() compares strictly. (`C74_future_counterexample`)
* **C75** Timer accounts for all elapsed time. Partial: ticks between the two readings of the clock in one call are lost. (`C75_timer_counterexample`)
* **C76** The PID recovers from an invalid reading. False: a NaN reading makes the output NaN for ever, also after initialize(). Partial: a NaN reading between two computations has no effect. (`C76_forever_counterexample`)
* **C77** tunings() returns the gains that were set. False: tunings() returns gains scaled to the sampling time and signed. Partial: what it does return. (`C77_tunings_counterexample`)
* **C78** The configured proportionality is used. False: the constructor always chooses proportional on measurement. Partial: set_tunings does choose it. (`C78_ignored_counterexample`)
* **C81** The relay tuner reports the gains of relay tuning. Exact arithmetic, times up to 2^24 ms. The reading that switches the output off is not counted for the amplitude, so the gains are right iff it is not the only highest of its cycle, and too large otherwise (C81_exact). C81_single: the same in single precision, each gain up to a millionth. (`C81_peak_counterexample`)
* **C83** A DateTime of the compilation has the date and the time of the compilation. Proved for the fields up to the call of mktime, when hour, minute and second are not 08 or 09. False: %i reads 08 and 09 as octal, and tm_isdst is never set, so that mktime reads an uninitialised value for every input. (`C83_dst_counterexample`, `C83_octal_counterexample`, `C83_second_counterexample`)
* **C84** Timestamps since 1970 and since 2000. Proved from 2000 on with a 64-bit long, before 2068 with a 32-bit long, and in release builds. False otherwise: an assertion compares with an unsigned wrap-around. (`C84_epoch_counterexample`, `C84_2068_counterexample`, `C84_time32_counterexample`)
* **C85** Searching a text and reading a number from it. find_first_of proved for all texts; to_float for a text followed by a NUL, for any strtof. False for a view into a longer text. (`C85_view_counterexample`, `C85_literal_counterexample`)
* **C86** A time is written to the nearest unit and can be read back. Proved for times from 0 to 2^61 us, up to the float rounding error; exact for whole numbers of the unit below 2^21. Every negative time is written in microseconds and cannot be read back (C86_negative, C86_read_iff); hours are never used although documented. (`C86_hours_counterexample`, `C86_negative_counterexample`)
* **C87** Constructing and copying a Result keep value and state. False if T or bool converts to E (C87_copy_counterexample, C87_value_counterexample). Exactly then (C87_exact). (`C87_copy_counterexample`, `C87_value_counterexample`)
* **C88** Accessing a Result gives the value of its state. False for unwrap of an intermediary result with I other than T, and in release builds if types coincide. (`C88_unwrap_counterexample`, `C88_release_counterexample`)
* **C89** Compound units compare by quantity. False for operands of different magnitudes: they are ignored (C89_magnitude_counterexample). Right for all values iff the ratios of the magnitudes are equal (C89_exact). (`C89_magnitude_counterexample`)
* **C90** simplify keeps the quantity. False: the greatest common divisor is taken of the scaled numbers; negative numbers are undefined; small ones divide by zero (counterexamples). unsigned long is taken as 64-bit. (`C90_terms_counterexample`, `C90_negative_counterexample`, `C90_int_counterexample`)
* **C91** Real times become whole kernel times. False beyond the range: more than 2^24 units do not round-trip, and times of 2^63 units, infinite ones and NaN are undefined. C91_exact says what to_kernel_time gives for every float. (`C91_range_counterexample`)
* **C92** Equality of real units is consistent. False: equality is not transitive, overlaps with <, does not hold for an infinite value and itself, and is not symmetric for different magnitudes (3 days == 259200000 ms, but not the other way round). (`C92_order_counterexample`, `C92_infinite_counterexample`, `C92_magnitude_counterexample`)
* **C93** Celsius and Kelvin. Exact arithmetic and an error bound for float. (`C93_exact_counterexample`)
* **C95** Analogue outputs hold the value that was set. False: set_value of the implementation hides that of the base, so value() is not updated (C95_hidden_counterexample), and full on writes 2^resolution, one more than the scale (C95_scale_counterexample). (`C95_hidden_counterexample`, `C95_fade_counterexample`, `C95_scale_counterexample`)
* **C96** The mock clock counts all delays. False: the factor 1000 is applied twice (C96_mixed_counterexample). Proved if the clock is read in the unit of all delays, up to 2^24. (`C96_mixed_counterexample`)
* **C97** Timers survive the clock rolling around. False for interval timers and alarms (general counterexamples over all polls). Proved after a reset. (`C97_interval_counterexample`, `C97_alarm_counterexample`)
* **C98** Delays take at least the time asked for. False: the rest below a ms is dropped, large ms are cut to 32 bits, negative us wait for more than an hour. C98_exact says for which numbers it holds. (`C98_counterexample`)
* **C99** The log level reaches the backend. False for OFF, whose case lacks a break. (`C99_off_counterexample`)
* **C100** Reading a byte reports whether there was one. False if nothing was received. (`C100_empty_counterexample`)
* **C103** Stripping and matching a StaticString. False for strings of delimiters alone (undefined) and for needles longer than the string (exception). (`C103_blank_counterexample`, `C103_ends_counterexample`)
* **C105** Comparisons across prefixes follow the quantities. Proved for quantities that differ by more than 5/2^24. False for equal quantities: time_ms(1000) > time_s(1) (counterexample). (`C105_order_counterexample`)
* **C106** Nothing is executed after a thrown exception. Proved for Arduino and Zephyr, and for native with a handler that throws or stops. On native without a handler, Mock::halt is empty, so failed assertions are passed and the checked division divides by zero (counterexample). (`C106_guard_counterexample`)
* **C108** attach_interrupt sets the pin's interrupt. Proved for boards whose lines are looked up and pins that have one. On ATmega8/168/328P the pin's number is passed as that of a line, so pin 2 of an Uno sets nothing; without a callback the line calls a null pointer, and without a trigger it fires while the pin is low (counterexamples). (`C108_attach_counterexample`, `C108_default_counterexample`)
* **C109** detach_interrupt undoes attach_interrupt. detach_interrupt passes the pin instead of its line: right iff the number of the pin is that of its line (C109_exact). On a Mega, detaching pin 2 leaves it attached and removes the interrupt of pin 21 (counterexample). (`C109_detach_counterexample`)
* **C110** Event data is read as what it was written. Proved except for empty data in release builds, which reads as zero (counterexample). (`C110_empty_counterexample`)
* **C111** An average of a constant becomes the constant. Exact: geometric convergence. In single precision the value settles within min(k, 2^24) units in the last place of the sample after any history, for all frames above 1 (infinite and NaN ones included) and samples up to half the largest float. It need not reach the sample: with a frame of 100 it stays at 1 for samples of 1+2^-20 (counterexample); with samples of -FLT_MAX and FLT_MAX it becomes NaN for good (counterexample). (`C111_overflow_counterexample`, `C111_stalls_counterexample`)
* **C112** A lasting error drives the output to its limit. Proved in exact arithmetic for both limits and both ways of the proportional part. In single precision it is false for small errors: the default controller at an output of 102 never reacts to a setpoint 2^-16 above all readings (C112_stalls_counterexample). Where the integral step is at least 2^-22 of the limits, C112_float_partial proves it in single precision, and C112_float_lower_partial for the lower limit: each computation gains at least half the step. (`C112_stalls_counterexample`)
* **C113** The controller does not wind up. C113_unwinds_partial: at both limits, for direct and reversed controllers, in exact arithmetic; C113_float_partial: in single precision up to the rounding errors of one computation (C138). False otherwise: a tiny integral part is lost in rounding (C113_rounding_counterexample); the setpoint lowered below a falling reading leaves the output at its limit (C113_setpoint_counterexample). (`C113_setpoint_counterexample`, `C113_rounding_counterexample`)
* **C116** normalize gives length one and keeps the direction. Proved in exact arithmetic for points other than the origin, and with any rounding of relative error u (2^-24 in single precision) that does not overflow: coordinates within 5u, length within 9u of 1. False for integer coordinates, where (3, 4) becomes (0, 0), and for the origin. (`C116_int_counterexample`, `C116_origin_counterexample`)
* **C117** dot is the inner product. False: dot returns the products of the coordinates as a point, like operator*; only their sum is the inner product (C117_sum_partial). (`C117_dot_counterexample`)
* **C119** Copying, moving and swapping vectors. Proved that copies and moved vectors show the elements, and that swap exchanges vectors with as many elements and as many removed from the front. False, and proved for any vector: copies share the storage (all assignments to either show in both), a vector moved from keeps its size with a null pointer. False by example: swap leaves the sizes behind. (`C119_alias_counterexample`, `C119_moved_from_counterexample`, `C119_swap_counterexample`)
* **C120** Debug builds stop on misuse of a vector. Proved for all calls except emplace_front (writes outside the storage), back and front of an empty vector, and remove (counterexamples). (`C120_emplace_front_counterexample`, `C120_ends_counterexample`)
* **C121** A release build ignores insertions into a full vector. Proved for push_back, emplace_back and insert behind the last element. The other insertions write outside the storage of every full vector, and pop_front of an empty vector leaves one that claims the largest size_t as its size (counterexamples). (`C121_overflow_counterexample`, `C121_underflow_counterexample`)
* **C122** Destroying an event system releases its events. Partial: capacity at most one (at most three in release builds) with nothing pending. False otherwise: debug builds fail the assertion of the destructor for every capacity of two or more; release builds leak one reference per pending event and the last quarter of the pool. (`C122_asserts_counterexample`, `C122_leak_counterexample`)
* **C123** A pipeline can be shown as text. C123_exact characterises the result for every history, readings and library. False: a comma follows the last time; debug builds fail an assertion on libraries whose strings have room for more than asked (short-string optimisation), or when the clock ticks from 1000 ms to 999 ms between the passes. (`C123_comma_counterexample`, `C123_capacity_counterexample`, `C123_tick_counterexample`)
* **C124** Kernel times in different units add and compare by quantity. Sums and differences are within half a unit, order is right unless the quantities are within half a unit of each other, and all comparisons are exact if the right operand is a whole number of units of the left one (always with the finer unit on the left, C124_finer). Right operands above 3,000,000 are rounded to float: C124_error_partial bounds the error for all sizes. False with the coarser unit on the left (counterexample for all seconds within 2900). (`C124_coarse_counterexample`)
* **C125** Dividing a time by a time counts how often it fits. Partial: divisors that are a whole number of units of the dividend. False otherwise: seconds divided by 1 to 499 ms report a division by zero, 9 s / 1.5 s is 4, and the smallest value divided by -1 overflows. (`C125_short_counterexample`, `C125_rounded_counterexample`, `C125_overflow_counterexample`)
* **C126** Scaling a time in place by a fraction gives the nearest time. Proved for every floating point type of p bits with order-preserving rounding: times and results up to 2^p are less than one unit off and exact if whole; order is kept for all values. False: the result is truncated, not rounded (every odd time halved), times that are no float are changed by *= 1.0f, NaN and infinities are undefined behaviour. (`C126_large_counterexample`, `C126_truncated_counterexample`, `C126_special_counterexample`)
* **C127** Scaling a time in place by an unsigned count. The product is right iff it fits, the quotient iff the time is not negative, the count is 1, or the count exceeds the time taken modulo 2^64 (C127_exact). So a negative time divided by a count from 2 to 2^63 becomes positive, and products that do not fit wrap silently. (`C127_negative_counterexample`, `C127_wrap_counterexample`)
* **C128** Copies of a pool. Proved while no pool is destroyed: every copy hands out each object at most once. Destroying a copy empties half of the slots of the original (release) or fails an assertion (debug); destroying the original leaves the copies dangling. (`C128_destroyed_copy_counterexample`, `C128_debug_counterexample`, `C128_dangling_counterexample`)
* **C129** Measuring time with micros(). Proved within 255 us when the clock does not roll around in between, and exactly for the first 16.7 s. Rollover and rounding counterexamples are general. (`C129_rollover_counterexample`, `C129_rounding_counterexample`, `C129_zephyr_counterexample`)
* **C130** Periodic tasks. Refinement to a specification of periodic tasks, for uptimes up to 2^24 ms and fewer tasks than the capacity: gaps between calls are in [T, T+L]. For uptimes N up to 2^40 ms and periods longer than N / 2^24 ms, the same up to N / 2^24 ms (C130_late_partial). False of the time since the start: the delays add up (general in T, L and the number of calls), and fails with as many tasks as the capacity. (`C130_drift_counterexample`, `C130_capacity_counterexample`)
* **C131** Arithmetic and equality of real units across prefixes. Sums, differences and ratios are proved. Equality is proved in one direction (equal means close); the other is false: 30 mm do not equal 3 cm (C131_equal_counterexample). A tiny divisor may convert to zero and be reported as a division by zero (C131_underflow_counterexample). (`C131_equal_counterexample`, `C131_underflow_counterexample`)
* **C132** Timestamps and calendar dates of a DateTime agree. Proved for a 64-bit time_t (timestamps before 2000 in release builds only, see C84), for every library that meets Clib.Utc; such a library exists (utc_exists). False on AVR, whose library counts from 2000: every date made from a timestamp is 10957 days late (C132_avr_counterexample); from numbers the timestamps are right there too. (`C132_avr_counterexample`)
* **C133** A vector can insert one of its own elements. Proved when nothing has to be moved, or only elements behind the referenced one. False otherwise, with the value inserted stated for every reachable vector: push_front on a window at slot 0 inserts the element before, or zero; insert at or before the element likewise; push_back and insert on a window at the end of the storage insert an element further on, or zero (C133_back_counterexample, C133_moved_counterexample). (`C133_front_counterexample`, `C133_insert_counterexample`, `C133_back_counterexample`, `C133_moved_counterexample`)
* **C134** An open transaction keeps showing its line. Holds if nothing in the input buffer had been overwritten when the transaction was opened (`overrun_space() == 0`). Otherwise the buffer is full and the next received byte replaces the first character shown, because `pull_in_data` stops before a complete line only when the overrun count is zero (`C134_overwritten_counterexample`, for every such state); `C134_wrong_line_counterexample` is a history in which the committed transaction drops a line that was never shown. (`C134_overwritten_counterexample`, `C134_wrong_line_counterexample`)
* **C136** A ring buffer shared with an interrupt handler. False in general. pop loses everything if the handler fills the buffer between the writes of m_tail and m_is_full, and returns false on a full buffer if the handler fills it between the two reads of empty(); push marks the buffer as full if the handler pops everything between the write of m_head and the comparison; and a handler that interrupts the push of the last element finds the buffer empty. C136_pop_partial and C136_push_partial hold for all other interleavings; C136_uninterrupted relates the interruptible functions to push and pop. The model is the best case: C++ gives no guarantee at all for members that are not atomic. (`C136_pop_counterexample`, `C136_pop_full_counterexample`, `C136_push_counterexample`, `C136_handler_counterexample`)
* **C137** A loop over the lines processes every line. False in general: get_next_line returns 0 for an empty line, and with the default delimiters every line that ends with CR LF is followed by an empty one, so the first loop ends after one line (C137_crlf_counterexample). A line that does not fit the caller's array is never removed: the first loop ends, the second one runs for ever (C137_long_counterexample, C137_stuck_counterexample). C137_read_partial says exactly which lines the first loop processes; C137_guarded_partial covers the second loop for lines that fit. C137_exact: these conditions are necessary, too. (`C137_crlf_counterexample`, `C137_long_counterexample`, `C137_stuck_counterexample`)
* **C140** Inherited members show the elements of a vector. Proved for vectors whose window starts at slot 0 (at, data) and for full ones (cbegin..cend). The code violates it otherwise: C140_at_counterexample, C140_const_reverse_counterexample. C140_at_exact and C140_const_loop_exact say what happens in all cases. (`C140_at_counterexample`, `C140_const_reverse_counterexample`)
* **C141** A transaction that has ended has no further effect. Debug builds: proved. Release builds: proved for incoming, commit, destruction, and abort with an output buffer that is not full. The code violates it for outgoing, for abort with a full output buffer (everything waiting is lost) and for objects that were moved from. (`C141_abort_counterexample`, `C141_outgoing_counterexample`, `C141_moved_counterexample`)
* **C143** The setpoint acts on the output. False without an integral part: PID always works on measurement (C78), where only the integral part sees the setpoint. With Ki = 0 the output is the same whatever the setpoints were (C143_ignored_counterexample). C143_acts_partial: off the limits, a change of the setpoint changes the output by that change times Ki (plus Kp on error). (`C143_ignored_counterexample`)
* **C144** Points are vectors of the Euclidean space. True in exact arithmetic, in terms of Mathlib's Euclidean space (C144_xyz_partial, C144_xy_partial), and with relative errors of the size of one rounding for sums and multiples, three for distances (C144_rounded_partial, C144_rounded_xy_partial). False for int coordinates: the length is cut off, so that a side of a triangle can be longer than the other two together (C144_triangle_counterexample). Sums of int points are undefined exactly if a coordinate overflows (C144_overflow); division and remainder fit together (C144_division, C144_division_xy). (`C144_triangle_counterexample`)
* **C145** A total of times is the sum of its parts. Exact within one unit for times up to 2^24 (C145_exact_partial); off by at most half a unit for each time added between different units (C145_drift_partial), and -= always takes back what += added (C145_undo). False in general: a variable in seconds does not grow, however many times of up to 499 ms are added to it (C145_stalls_counterexample). (`C145_stalls_counterexample`)
* **C146** A detached handler is called no more. False: detach is not implemented. In debug builds it fails an assertion (C146_debug_partial); in release builds it does nothing, and every later event calls the handler, through a dangling pointer if it was destroyed (C146_detach_counterexample). (`C146_detach_counterexample`)
* **C147** The loop of PID, sensor and process settles at the setpoint. The quantity stays in a band around the setpoint, however long the loop runs: the errors at first shrink by a factor with each computation, and what is left is bounded by the size of the disturbances, of the error of the sensor and of the rounding errors (C147_band_partial). There is such a factor for all gains of C142 (C147_factor), and the first computation leads from any state into the hypotheses (C147_first). False as it stands: a loop with a perfect sensor and no disturbances can stay away from the setpoint for ever, since the integral no longer changes (C147_stuck_counterexample). Missing: derivative part, more than one step of the process per computation. (`C147_stuck_counterexample`)
* **C148** A latch as a controller keeps the quantity in a band. Readings as rationals (the latch only compares them, and comparisons of finite floats are exact). The process is any list of readings that keeps the rates, given the responses the latch actually gave. The bound holds without low <= high. The counterexample shows that it needs maximal_on_time = 0. (`C148_maximal_counterexample`)
* **C149** A periodic event drives a controller at every call. Composes C130 (times of the calls of a periodic event) with the models of the PID and of the interval timer. The PID compares with >=, the interval timer with >; so the first works at every call, and the second misses every other punctual call (general in the period and the number of calls). C149_late_partial extends it to uptimes of 34 years for sampling times that are shorter than the period by twice the precision of a float at the uptime; C149_late_counterexample shows that a sampling time equal to the period does not do then. (`C149_timer_counterexample`, `C149_late_counterexample`)
* **C150** A DateTime writes itself as text that identifies it and can be read back. strftime is modelled for the conversions used, in the C locale; gmtime_r as in C132. Writing and identification are proved. Reading back is proved up to the call of mktime (C83) if no hour, minute or second is 8 or 9; it is false otherwise: 08 and 09 are written and then read as octal numbers (C150_octal_counterexample). (`C150_octal_counterexample`)
* **C151** Copies of a ring buffer. Copies share the slots of the original. Proved for programs that only take out and look: any number of copies, of copies of copies, with calls in any order, behave as separate queues as long as the original lives (C151_reading_partial). False otherwise: elements pushed into both take the same slot (C151_push_counterexample), a push with rollover into the copy of a full ring buffer replaces the oldest element of the original (C151_rollover_counterexample), a copy whose original was destroyed, or a ring buffer that was moved from, reports its elements but reading them is undefined behaviour (C151_dangling_counterexample, C151_moved_counterexample). Each counterexample holds for every ring buffer, not only for one. (`C151_push_counterexample`, `C151_rollover_counterexample`, `C151_dangling_counterexample`, `C151_moved_counterexample`)
* **C152** Copies of a PID. Holds for every program in which initialize() and new_reading() are called only on objects constructed where they are: then all objects, copies included, are as if each was a controller of its own, faults included (C152_in_place_partial). Does not hold otherwise: the compiler's copy operations copy the pointers of the backend, which point to the variables of the original. A copy never changes its response (C152_deaf_counterexample); its readings change the response of the original, whatever their value (C152_meddles_counterexample); after the original is gone, using it is undefined behaviour (C152_dangling_counterexample), and so is initialize() after pid = PID(cfg) (C152_assigned_counterexample). (`C152_deaf_counterexample`, `C152_dangling_counterexample`, `C152_assigned_counterexample`, `C152_meddles_counterexample`)
* **C153** Preheating before tuning stops at the startpoint or after half an hour. For processes as state machines of any type, in any arithmetic, with a journal of all calls: the turns of heating and the end, at most 1800 turns if the clock keeps time (2^24 ms after start-up at the latest). The half hour is measured with HAL::millis(), not with the clock given to autotune: with the clock of an Arduino rolling around, or with a simulated process on the mock platform, heating a process that does not reach the startpoint never ends. (`C153_rollover_counterexample`, `C153_simulated_counterexample`)
* **C154** Autotuning reads the process at the sample interval and drives only the limits. For processes as state machines of any type: the complete journal of a run that ends, related to the tuner (C47, C81). The time between readings can be short by one part in 2^24 of the uptime, see the counterexample; waiting is punctual up to the length of one loop and sleep. (`C154_early_counterexample`)
* **C155** A Result as a variable keeps its state. The unwrap functions move a Wrapper, whose conversion gives an lvalue: the value is copied, and stays. Missing: types for which a copy is not a copy (C155_copy_counterexample, C87). (`C155_copy_counterexample`)
* **C156** A latch behind an average does not react to noise and short spikes. Noise, spikes and drop-outs are proved in single precision, with one rounding error per spike, and the number of other samples does not matter (C156_noise_partial, C156_spikes_float_partial, C156_dropouts_float_partial); without rounding errors in exact arithmetic (C156_spikes_partial, C156_dropouts_partial). False before the frame is full: the first sample is the average (C156_first_counterexample). Latches with a maximal off (or on) time are excluded, as they switch without a reason (C42). (`C156_first_counterexample`)
* **C157** A program that sleeps from block to block shows the planned values. True for plans in the order of starts without gaps and overlaps; between blocks the sleeping program keeps showing the value of a block that has ended, and counterexamples show the other orders and overlaps. (`C157_gap_counterexample`, `C157_order_counterexample`, `C157_overlap_counterexample`)
* **C158** reset_to makes a filter forget. Proved for stacks of EWMA, MappedRange, Invert and Passthrough; BandPass keeps its count of rejections over a reset (proved for a band that has just accepted a reading), and a stack resets filters behind a MappedRange to an unmapped number. (`C158_band_counterexample`, `C158_scale_counterexample`)
* **C159** A command server answers every request once, in order. Any requests: C159_server_partial (the replies received and on their way are those to the requests served, whatever was lost; the only possible failure is reading a request that runs over the end of the storage through Transaction::incoming()). Requests shorter than the input buffer, copied with get_next_line or never running over a multiple of the buffer's size: C159_server (no failure, nothing lost, requests served are exactly the first ones sent), C159_fixed (requests of one length k with k + 1 dividing the size), C159_answered (all requests answered and delivered after (M + 2)(n + a) + m rounds). C159_straddles_counterexample: a transaction's view of a request that runs over the end is undefined behaviour, and it happens with two requests of 4 bytes in a buffer of 8. (`C159_straddles_counterexample`)
* **C160** Rescheduling a future that is already in the pipeline has no effect. The documented claim is false. C160_served says exactly what comes out of a pipeline in any state a user can reach with push, reschedule, waiting and serving: the longest stretch from the front all of which is due, in queue order. C160_reschedule says what rescheduling does to the queue: the place stays, the deadline changes. Together they give what is left of the claim: the order of service never changes (C160_order_partial), the futures queued before are not affected (C160_front_partial), and nothing is affected while a future queued before it is due at or after both deadlines (C160_covered_partial); and how it fails, for every pipeline and not just one: a future moved to later holds up all behind it (C160_later_counterexample), and one moved to earlier comes out earlier (C160_earlier_counterexample). C160_again and C160_twice: pushing a pending future. Times are below 2^24 ms, where k_time is exact. (`C160_later_counterexample`, `C160_earlier_counterexample`)
* **C162** A ring buffer can push its own elements. C162_own: any run of elements that is contiguous in the storage, both modes. C162_requeue_partial: moving a line to the end, for lines that do not run over the end of the storage. C162_straddles_counterexample: for the other ones the view that get_next_line_view gives out leaves the storage, and pushing it is undefined behaviour. (`C162_straddles_counterexample`)
* **C163** Kernel time does not depend on the width of time_t. False. With 32 bits an operation gives the same result exactly if the converted operand and the result fit (C163_operations), so alarms set and asked within the first 24 days, but for the last 64 ms, give the same answers, with the same accuracy (C163_alarm_partial), and so do interval timers (C163_interval_partial). But an alarm due at 2^31 ms or later is undefined when set, asking any pending alarm in the 64 ms before is undefined, since the reading is rounded to 2^31 in float, and after that a pending alarm or an interval timer does not fire for another 24 days. Times of 36 minutes and more cannot be converted to us, so repr of them is undefined; up to 2147 s the text is the same (C163_text_partial). (`C163_end_counterexample`, `C163_set_counterexample`, `C163_stuck_counterexample`, `C163_interval_counterexample`, `C163_text_counterexample`)
* **C164** simplify works in float and with any unsigned long. False. In float a quantity whose numerator is zero or not below the precision and whose denominator is not below it is kept up to one part in 2^22, for every width, if the scaled numbers fit (C164_float_partial). With a 32-bit unsigned long they do not fit for numerators from 4295 on with the default precision, which is undefined (C164_long_counterexample). Integers are reduced to lowest terms there, even negative ones, which is not so with 64 bits (C90), if the greatest common divisor is below 2^32 (C164_int_partial); larger ones are cut (C164_gcd_counterexample). Negative floats are undefined for both (C90). (`C164_long_counterexample`, `C164_gcd_counterexample`)
* **C165** A program that sleeps until its timer is due goes on then. Holds on all platforms for alarms that are not overdue, and for interval timers if at least 1 ms passes between the end of the sleep and expired() and the program is never late (C165_alarm_partial, C165_periodic_partial, C165_catch_up_partial), up to 2^24 ms. False otherwise: a negative time makes Arduino sleep for 49 days and turns back the mock clock, and expired() is false in the ms in which the sleep ends. (`C165_overdue_counterexample`, `C165_never_counterexample`, `C165_hang_counterexample`, `C165_back_counterexample`)
* **C166** A port that refuses bytes only delays them. False for the output: push_out_data() takes a byte from its buffer before the port accepts it, so a refused byte is lost (C166_refused_counterexample). True on every port: order is kept, nothing is duplicated, at most one byte is lost per call of push_out_data(), the number returned is the number accepted, and nothing the port delivered is lost on the input side. A class that does not override write(uint8_t) destroys one byte per call in a release build and fails an assertion in a debug build. (`C166_refused_counterexample`)
* **C167** The band of a BandPass has the documented width. The code computes (mantissa*10)^(decades+1) instead of the documented mantissa*10^(decades+1): they agree if and only if the mantissa is 1 (the default) or decades is 0. The distance is a plain difference, not a logarithmic one: the default filter has a band of about 10.23 to both sides at any magnitude, so it never rejects anything of a quantity between 0 and 1. std::pow is taken as exact. (`C167_mantissa_counterexample`, `C167_logarithmic_counterexample`)
* **C168** A line length found earlier can be passed on. Proved for pushes without rollover and for calls that only look (C168_kept_partial), and what any other length does (C168_any: never undefined behaviour). False if a push with rollover came in between (C168_rollover_counterexample) and for a length of 0 (C168_zero_counterexample). (`C168_rollover_counterexample`, `C168_zero_counterexample`)
* **C169** An analogue input reads a fraction that an output accepts. Proved for converters of up to 10 bits (exact, no rounding); percentage and permillage are exact for every converter, but stop at the end of a range of 10 bits. False for wider converters, as read() always divides by 1024: what is read exceeds 1 and is refused or written out of range (C169_wide_counterexample); with an output active on low a reading of 0 writes 2^resolution (C169_low_counterexample). (`C169_low_counterexample`, `C169_wide_counterexample`)
* **C170** A reading that a filter refuses leaves no trace. value() is unchanged (C170_value_partial); if filters without a memory come first (MappedRange, Invert, Passthrough) and one of them refuses, or a BandPass comes first and refuses, all later readings give what they would have given (C170_memoryless_partial, C170_band_partial; the latter up to 2^31 refusals in a row). False otherwise: an EWMA in front has taken the refused reading, so that good readings after it are refused as well (C170_average_counterexample), and a BandPass that refuses its first reading takes it for its value (C170_first_counterexample). (`C170_first_counterexample`, `C170_average_counterexample`)
* **C172** A filter stack has the slots it was constructed with. False as stated: filter_slots() is max_size() of std::vector, never the number asked for (C172_slots_counterexample), and a filter beyond the last slot is attached (C172_beyond_counterexample). What holds: occupied slots are the attached filters in order; up to the number asked for nothing is allocated. (`C172_slots_counterexample`, `C172_beyond_counterexample`)
* **C173** An event handler belongs to one event system. Debug builds: proved, including that each misuse is stopped (C173_stops). Release builds: a second attachment moves the handler silently, attaching to a null pointer makes every use undefined (C173_release_counterexample). (`C173_release_counterexample`)
* **C175** Larger samples give larger filtered values. Single precision: proved for stacks of MappedRange (limits up to 2^125), Invert and Passthrough, also for infinite samples. EWMA: proved in exact arithmetic for frames of at least one sample; in single precision false, the average of smaller samples can be larger (C175_average_counterexample). BandPass: false, a larger sample can be refused (C175_band_counterexample). (`C175_average_counterexample`, `C175_band_counterexample`)
* **C176** A fade takes one interval per increment. The times are proved for any arithmetic (C176_steps); the number of steps exactly in exact arithmetic, and up to one and a half increments in single precision, where it can be one too many: fading from 0 to 0.5 with the defaults takes 1500 instead of 1250 ms (C176_float_counterexample). (`C176_float_counterexample`)
* **C177** References to elements of a vector stay valid while other elements are added and removed. False as stated: push_back moves every element to the start of the storage when the window has reached its end after removals at the front, and push_front shifts every element when the window starts at slot 0 (counterexamples). Proved instead: exactly when push_back and push_front move the elements (iff), that pop_front and pop_back never move the others, and that references stay valid while the vector is used as a stack. (`C177_moved_counterexample`, `C177_front_counterexample`)
* **C179** Line buffers remember their delimiters. False as stated: a LineBuffer keeps a std::string_view, so that changing the caller's text changes the delimiters, and looking for a line after the text has ended is undefined behaviour (counterexamples). Proved instead: exactly which delimiters are in force, and that a line buffer behaves as one which remembers them while the texts exist and keep their characters. (`C179_changed_counterexample`, `C179_destroyed_counterexample`)
* **C181** Products of units. The raw value is right, in squares of the left unit (C181_product; kernel times within the range of C124). False that the operands can be exchanged or converted first: the result has the type of a length, 2 km * 3 m is 0.006 km and 3 m * 2 km is 6000 m. The source marks the operator as unstable for this reason. The partial theorems say for exactly which operands it makes no difference. (`C181_order_counterexample`)
* **C182** Outputs stay off while they are initialised. False for an output that is active on a low level after a reset: pinMode(OUTPUT) comes before the first digitalWrite, and the latch is low. C182_initialize gives the levels exactly; setting the state to off before initialize() avoids it (C182_set_first). Assumes that digitalWrite on an input sets the output latch, as on AVR, SAMD and STM32. (`C182_counterexample`)
* **C184** A controller does not depend on the unit of the quantity. Exact arithmetic. Proved from construction on for every change of scale, and for every change of scale and offset if the proportional part acts on the error and there is no derivative part, or if a PIDController is initialised with a reading in its input variable. False otherwise: the first reading of a PID counts as a change from 0, so a first reading at the setpoint gives a response that depends on the offset (proved for all controllers with limits on both sides of 0). (`C184_first_reading_counterexample`)
* **C185** Filters and latches do not depend on the unit of the quantity. Exact arithmetic. Proved for stacks of averages, mapped ranges, inverters and pass-through filters and for latches. A band-pass filter knows that it has no value by a value of -789.123456789, so a sample of that value counts as none; proved for samples that are different from it in both units. (`C185_band_counterexample`)
* **C186** Filters forget old samples. Exact arithmetic. Proved for stacks of averages (frames over 1/2, which is exact), mapped ranges, inverters and pass-through filters as long as neither stack throws, with the rate for an average. False for band-pass filters, of which each may reject for ever what the other accepts (proved: from the first sample that both accept on they do the same), and for stacks with a range that throws, of which one may throw at every sample and the other at none. (`C186_short_counterexample`, `C186_band_counterexample`, `C186_throws_counterexample`)
* **C187** Controllers side by side do not drift apart. Exact arithmetic. Proved from the first reading on that both controllers compute with; if their states are equal then, they do the same for ever. False before: controllers whose last computations were at different times compute with different readings, and can end at opposite limits. (`C187_out_of_step_counterexample`)
* **C188** A larger reading never gives a larger response. Single precision; the only exception is a response that is not a number. One reading: for all gains of one sign. Series: proved for controllers without derivative part and with the proportional part on the error; false with a derivative part, which answers a fall from a larger earlier reading. (`C188_derivative_counterexample`)
* **C189** Filters and latches recover from an invalid reading. Proved for latches and for stacks of BandPass, MappedRange, Invert and Passthrough, with the exact number of invalid answers for a BandPass. False for an EWMA, whose value is never a number again (until reset_to), and for a BandPass that is relative and throws, which never accepts a sample if the first one was invalid. (`C189_average_counterexample`, `C189_band_counterexample`)
* **C190** Timers, latches, controllers and pipelines do not depend on the uptime. Missing: times beyond 2^24 ms, where the code violates the claim (C190_alarm_counterexample, C190_latch_counterexample: `Unit` converts through single precision). Each theorem compares the run from construction with the one d ms later. Pipelines are limited further as in C35_pipeline_partial (delays of at most 2^23 ms, a clock that does not go back). (`C190_alarm_counterexample`, `C190_latch_counterexample`)
* **C191** Larger readings and lower thresholds never turn an SRLatch off. C191_latch in single precision, C191_exact exact, C191_filtered behind an exact EWMA with a frame of at least 1. The counterexamples show that the restriction to latches without minimal and maximal times is needed. (`C191_minimal_counterexample`, `C191_maximal_counterexample`)
* **C193** A larger ring buffer holds and accepts no less. C193_sizes_partial and C193_newest_partial leave out bulk pops and drops of zero elements; C193_bulk_pop_counterexample and C193_drop_zero_counterexample show concrete histories in which the smaller buffer accepts what the larger one refuses. (`C193_bulk_pop_counterexample`, `C193_drop_zero_counterexample`)
* **C194** The order in which events with different deadlines are pushed does not matter. C194_order_partial leaves out delays above 2^23 ms, for which C194_long_delay_counterexample shows that the order of the pushes decides, and a clock that advances between the readings within a push (C35_tick_counterexample). C194_equal shows why the delays must differ. (`C194_long_delay_counterexample`)
* **C195** Capacity beyond what is needed changes nothing. C195_vector_partial leaves out pop_back and remove, for which C195_pop_back_counterexample and C195_remove_counterexample show that a change of capacity changes the answers, and front (see C25). C195_pipeline_partial has the range of C35_later_partial. fill, full and max_size depend on the capacity by their meaning. (`C195_remove_counterexample`, `C195_pop_back_counterexample`)
* **C196** Calls that achieve nothing leave no trace. C196_ring_partial leaves out drop_last(0) and drop_first(0) (C196_drop_zero_counterexample); C196_pipeline_partial has the range of C35_later_partial. C196_latch_counterexample and C196_initialize_counterexample show the calls that look idle and are not. A failed push_out_data is not among the idle calls: it loses the byte that was refused (C166). (`C196_drop_zero_counterexample`, `C196_initialize_counterexample`, `C196_latch_counterexample`)
* **C197** Delays on Arduino and delays in other units take at least the time asked for. C197_arduino_exact says for which times the delay lasts long enough; C197_units_partial leaves out delays of more than 3000000 ms in other units (C197_units_counterexample). What ::delay and ::delayMicroseconds of the Arduino core do is assumed: they pass the time that is their argument. (`C197_wrap_counterexample`, `C197_units_counterexample`)
* **C198** The response to a sum of signals is the sum of the responses. Exact arithmetic; with floats the responses differ by rounding errors, whose bounds are those of C135 and C138. That the controllers stay off their limits is a hypothesis (FreeThroughout), with a counterexample at a limit; limits are those of the output and of the accumulated integral. (`C198_limit_counterexample`)
* **C199** Repeating a setting changes nothing. Proved for all listed calls but two: rstrip of a text and simplify of negative integer fractions are counterexamples of the code. simplify of fractions that are not integers is proved in exact arithmetic. (`C199_rstrip_counterexample`, `C199_simplify_counterexample`)
* **C200** Undoing a call restores what was before. Proved for the ring buffer when the push had room, for push_front/pop_front and push_back/pop_back on every reachable vector, for flip, invert, mapping and direction. Counterexamples of the code: a push refused by a full buffer, insert/remove after a pop_front, the sampling time, the limits. (`C200_ring_counterexample`, `C200_insert_counterexample`, `C200_sampling_counterexample`, `C200_limits_counterexample`)
* **C201** Settings of different things can be made in any order. Proved for all permutations of settings of different things, in exact arithmetic and with floats; for the gains together with the sampling time only when the new time is a multiple of the former one, and the counterexample shows that it fails for every other time. (`C201_sampling_counterexample`)
* **C202** How data is cut into pieces does not matter. C202_push, C202_single and C202_streams hold in every state. C202_pop_partial leaves out pops of more elements than there are (C202_pop_counterexample), C202_drop_partial pieces of no elements (C04_drop_zero_on_full_counterexample). (`C202_pop_counterexample`)
* **C211** The order of earlier readings does not matter. The controller in exact arithmetic and the average in exact arithmetic and single precision. C211_frame_counterexample and C211_limit_counterexample show that the restrictions of the statement are needed. (`C211_frame_counterexample`, `C211_limit_counterexample`)
* **C213** Two ring buffers one behind the other. C213_hasty_counterexample is about the careless user program, not about the library: it shows that the condition of the statement is needed. (`C213_hasty_counterexample`)

Not properties, but found on the way:

* The comment in `units/time.hpp` that `k_time_s(k_time_ms(500)) == 0` is false: conversions round (C32), the result is 1.
* The comment at `pipeline.hpp:24`, that `reschedule` has no effect on a future in the pipeline, is false: it changes the timer in place and breaks the order.
* `ArduinoInterrupt` reads its configuration after moving from it (harmless, as the members are copied).
* `Point::dot` returns the componentwise product, `Tuple::first()` gives writable access to a `const` member.
* `Pipeline::to_string` writes a separator after the last entry.

## Axioms per theorem

* no axioms (24 theorems): `C01_capacity_zero`, `C51_null_debug`, `C54_empty_counterexample`, `C55_match_counterexample`, `C83_numbers`, `C87_copy_partial`, `C87_value_partial`, `C99_partial`, `C99_off_counterexample`, `C100_empty_counterexample`, `C114_mock_uart`, `C117_dot_counterexample`, `C144_triangle_counterexample`, `C146_debug_partial`, `C155_moved_state`, `C192_buffers`, `C192_result`, `C192_combinators`, `C192_interrupt`, `C192_half_ports`, `C199_rstrip_counterexample`, `C199_output`, `C199_stack`, `C200_flip`.
* `propext` (94 theorems): `C05_overrun_capacity_one_counterexample`, `C05_overrun_drop_counterexample`, `C10_line_view_counterexample`, `C12_nul_delimiter_stuck`, `C13_pull_twice_counterexample`, `C14_failed_write_loses_byte`, `C18_move_partial`, `C18_move_assign_counterexample`, `C20_pop_back_counterexample`, `C21_remove_full_counterexample`, `C21_remove_after_pop_counterexample`, `C21_remove_twice_counterexample`, `C23_history_counterexample`, `C24_pop_back_counterexample`, `C24_clear_counterexample`, `C25_front_counterexample`, `C31_scalar`, `C51_composition`, `C51_attach`, `C54_continues`, `C54_stops_partial`, `C54_throws`, `C54_final_partial`, `C55_map`, `C55_then`, `C55_functor`, `C55_monad`, `C55_match_partial`, `C56_blank_counterexample`, `C56_rstrip_counterexample`, `C63_unique_id`, `C67_move_assign_counterexample`, `C67_copy_assign_counterexample`, `C67_histories`, `C68_alias_counterexample`, `C68_dangling_counterexample`, `C69_swap_counterexample`, `C70_moved_from_counterexample`, `C79_start`, `C85_literal_counterexample`, `C87_exact`, `C87_states`, `C87_copy_counterexample`, `C87_value_counterexample`, `C88_or`, `C88_unwrap_partial`, `C88_unwrap_counterexample`, `C88_release_counterexample`, `C90_int_counterexample`, `C94_level`, `C94_state`, `C98_counterexample`, `StaticString.C103_blank_counterexample`, `C106_guard_partial`, `C106_native`, `C106_divide_partial`, `C106_guard_counterexample`, `C107_handlers`, `C119_alias_counterexample`, `C119_moved_from_counterexample`, `C119_swap_counterexample`, `C120_ends_counterexample`, `C127_wrap_counterexample`, `C134_wrong_line_counterexample`, `C140_at_counterexample`, `C155_uses_partial`, `Compound.C164_gcd_counterexample`, `HandlerLink.C173_release_partial`, `C179_changed_counterexample`, `C179_destroyed_counterexample`, `C182_off_partial`, `C182_set_first`, `C182_counterexample`, `C182_follows`, `C189_answers`, `C192_vector`, `C192_vector_own`, `C192_stack`, `C192_transaction`, `C192_server`, `C192_exchange`, `C192_answer`, `Ring.C193_bulk_pop_counterexample`, `Ring.C193_drop_zero_counterexample`, `C195_remove_counterexample`, `C195_pop_back_counterexample`, `C196_ring_partial`, `C196_drop_zero_counterexample`, `C196_mock`, `C197_wrap_counterexample`, `C199_limits`, `C199_simplify_counterexample`, `C200_insert_counterexample`, `C202_pop_counterexample`.
* `Quot.sound`, `propext` (106 theorems): `C12_mock_stream`, `C26_swap_counterexample`, `C26_swap_copy_counterexample`, `C27_reverse_iteration_partial`, `C27_const_reverse_counterexample`, `C51_value_partial`, `C51_null_release`, `C51_null_counterexample`, `C54_copy_counterexample`, `C56_rstrip_partial`, `C57_starts`, `C57_long_counterexample`, `C58_accepts_partial`, `C58_sound`, `C58_throws`, `C60_bcd`, `C61_object`, `C63_unique`, `C68_copy_partial`, `C68_shared`, `C69_swap_partial`, `C69_exact`, `C70_move_partial`, `C70_exact`, `C71_increment_partial`, `C71_postfix_counterexample`, `C71_reverse_partial`, `C71_reverse_counterexample`, `C72_set`, `C72_front_back`, `C72_fill`, `C73_references_partial`, `C73_pop_keeps_reference_counterexample`, `C84_after_2000_partial`, `C84_release`, `C84_narrow_partial`, `C84_epoch_counterexample`, `C84_2068_counterexample`, `C84_time32_partial`, `C84_time32_counterexample`, `C85_found`, `C85_npos`, `C88_access`, `C95_value_partial`, `C95_hidden_counterexample`, `C98_partial`, `C100_partial`, `StaticString.C102_write`, `StaticString.C102_capacity`, `StaticString.C103_ends_counterexample`, `C108_attach_partial`, `C108_again`, `C108_attach_counterexample`, `C108_default_counterexample`, `C109_detach_partial`, `C109_detach_counterexample`, `C110_same`, `C110_type`, `C110_empty_partial`, `C110_empty_counterexample`, `C110_other`, `C116_int_counterexample`, `C119_copy_partial`, `C119_shares`, `C119_moved_from`, `C119_swap_partial`, `C128_one_owner`, `C132_getters_partial`, `C132_round_trip`, `Ring.C136_uninterrupted`, `C140_const_reverse_counterexample`, `C141_debug`, `C141_moved_counterexample`, `C144_overflow`, `C155_copy_counterexample`, `C158_forgets_partial`, `C158_ewma`, `C166_refused_counterexample`, `C170_memoryless_partial`, `FilterSlots.C172_occupied_partial`, `FilterSlots.C172_memory_partial`, `FilterSlots.C172_slots_counterexample`, `FilterSlots.C172_beyond_counterexample`, `HandlerLink.C173_one_partial`, `HandlerLink.C173_stops`, `HandlerLink.C173_release_counterexample`, `C175_passthrough`, `C179_unchanged_partial`, `C182_initialize`, `C192_pool`, `C192_event_data`, `C192_ports`, `C197_negative`, `C199_direction`, `C199_interrupt`, `Interrupt.C201_interrupts`, `C202_push`, `C202_single`, `C202_streams`, `Filter.C206_value`, `FilterStack.C206_stack`, `C212_size_needed`, `C212_size_needed_rollover`, `C213_chain`, `C214_nothing_lost`, `C214_arrives`.
* `Classical.choice`, `Quot.sound`, `propext` (733 theorems): `C01_ring_is_bounded_fifo`, `C01_ring_order`, `C02_ring_space`, `C02_ring_readable`, `C03_ring_rollover_keeps_newest`, `C03_ring_rollover_keeps_newest_single`, `C03_ring_no_rollover_keeps_all`, `C04_drop_last_partial`, `C04_drop_first_partial`, `C04_ring_history_with_drops_partial`, `C04_drop_zero_on_full_counterexample`, `C04_drop_last_counterexample`, `C04_drop_default_drops_nothing`, `C05_capacity_one_counterexample`, `C05_drop_last_counterexample`, `C05_drop_last_exact`, `C05_histories`, `C05_overrun_partial`, `C06_bulk_pop_enough`, `C06_bulk_pop_short`, `C06_bulk_push`, `C07_length_of_next_line`, `C07_length_zero_iff`, `C08_get_next_line`, `C08_get_next_line_refused`, `C08_get_next_line_memory`, `C09_lines_lose_nothing`, `C10_small_partial`, `C10_capacity_counterexample`, `C10_line_view_partial`, `C10_no_line_no_view`, `C11_drop_next_line`, `C11_drop_next_line_none`, `C12_pull_in_data`, `C13_pull_keeps_line_ends_partial`, `C13_polling_loop_keeps_lines_partial`, `C14_push_out_data`, `C15_output_order`, `C15_input_order`, `C15_input_exact`, `C16_commit`, `C16_no_line_no_transaction`, `C17_abort_exact`, `C17_abort_partial`, `C17_abort_full_output_counterexample`, `C18_finalize_once_release`, `C18_finalize_once_debug`, `C19_vector_is_bounded_sequence`, `C20_pop_back_partial`, `C20_back_history_partial`, `C20_single_exact`, `C21_remove_partial`, `C21_slot_exact`, `C21_outside_counterexample`, `C22_forward_iteration`, `C22_reverse_iteration`, `C23_memory_safe_partial`, `C23_remove_exact`, `C24_shared_counts_partial`, `C24_shared_counts_back_partial`, `C25_back`, `C25_front_partial`, `C26_no_double_free`, `C26_histories`, `C28_acquire`, `C28_exclusive`, `C29_acquire_terminates_partial`, `C29_acquire_diverges_counterexample`, `C30_destroy_partial`, `C30_destroy_asserts_counterexample`, `C30_destroy_leaks_counterexample`, `C31_exact_partial`, `C31_error_partial`, `C31_counterexample`, `C31_overflow_counterexample`, `C32_nearest_partial`, `C32_error_partial`, `C32_counterexample`, `C32_tie_counterexample`, `C33_alarm_partial`, `C33_error_partial`, `C33_early_counterexample`, `C33_late_counterexample`, `C34_catch_up_partial`, `C34_rate_partial`, `C34_separation_partial`, `C34_error_partial`, `C34_early_counterexample`, `C35_pipeline_partial`, `C35_later_partial`, `C35_long_delay_counterexample`, `C35_tick_counterexample`, `C35_ticks_partial`, `C35_ticks_late_partial`, `C35_ticks_push_partial`, `C35_ticks_order_counterexample`, `C36_exactly_once`, `C36_schedule_partial`, `C36_on_time_partial`, `C36_order_partial`, `C36_delivers_partial`, `C36_early_counterexample`, `C37_capacity`, `C37_exclusive`, `C38_schedule_counterexample`, `C38_trigger_counterexample`, `C38_handler_counterexample`, `C38_event_partial`, `C39_trigger`, `C39_loop`, `C39_attach`, `C39_beyond_capacity`, `C39_completes`, `C40_deadline_partial`, `C40_max_partial`, `C40_max_counterexample`, `C40_idle`, `C40_idle_default`, `C41_minimal_partial`, `C41_rounding_counterexample`, `C42_maximal_partial`, `C42_off_partial`, `C42_forever_counterexample`, `C43_band`, `C43_band_within_partial`, `C43_rise_partial`, `C43_first_partial`, `C43_fall_partial`, `C43_stays`, `C43_low_counterexample`, `C44_controller`, `C44_pid`, `C44_ieee`, `C44_order_counterexample`, `C45_unchanged`, `C45_sampling_partial`, `C45_rounding_counterexample`, `C46_multiple_partial`, `C46_only_multiples`, `C46_shorter_counterexample`, `C47_outputs`, `C47_cycles`, `C47_loop_partial`, `C47_zero_counterexample`, `C47_average_partial`, `C47_average_counterexample`, `C47_single_counterexample`, `C48_range_partial`, `C48_one_counterexample`, `C48_short_counterexample`, `C48_overflow_counterexample`, `C49_accept`, `C49_limit`, `C49_reject_partial`, `C49_forced_counterexample`, `C49_absolute_counterexample`, `C49_sentinel_counterexample`, `C49_nan_counterexample`, `C49_overflow_counterexample`, `C50_linear`, `C50_limits`, `C50_range`, `C50_monotone`, `C50_throws`, `C50_ieee`, `C50_ieee_counterexample`, `C50_nan_counterexample`, `C51_invert`, `C51_invert_counterexample`, `C51_assert_counterexample`, `C51_keeps`, `C51_empty_counterexample`, `C52_value_at_partial`, `C52_disjoint`, `C52_start_counterexample`, `C53_exact`, `C53_next_partial`, `C53_some_start`, `C53_order_counterexample`, `C56_exact`, `C56_lstrip_partial`, `C57_ends_partial`, `C58_throw_counterexample`, `C59_print_partial`, `C59_debug_counterexample`, `C59_error_partial`, `C59_error_counterexample`, `C59_level`, `C60_leap`, `C60_year_day`, `C60_unique`, `C61_exact`, `C61_float_partial`, `C61_exact_partial`, `C61_range`, `C61_end_counterexample`, `C61_float_counterexample`, `C61_endless_counterexample`, `C61_zero_counterexample`, `C62_raw`, `C62_arith`, `C62_scale`, `C62_undefined`, `C62_float_zero`, `C63_concat_partial`, `C63_array_counterexample`, `C64_stack_lifo`, `C65_loop_partial`, `C65_diverges_counterexample`, `C66_destroy_empty_partial`, `C66_destroy_leaks_counterexample`, `C67_all_freed_partial`, `C67_exact`, `C68_dangling`, `C72_construct`, `C72_list_assign`, `C72_set_other`, `C74_future_partial`, `C74_future_counterexample`, `C75_timer_partial`, `C75_timer_counterexample`, `C76_forever_counterexample`, `C76_skipped_partial`, `C77_tunings_counterexample`, `C77_scaled_partial`, `C78_ignored_counterexample`, `C78_tunings_partial`, `C79_law`, `C79_saturation`, `C80_order`, `C80_sign`, `C80_history`, `C80_ieee`, `C81_gains_partial`, `C81_start`, `C81_peak_counterexample`, `C81_exact`, `C81_single`, `C81_single_start`, `C82_mean`, `C82_weight`, `C83_fields_partial`, `C83_dst_counterexample`, `C83_octal_counterexample`, `C83_second_counterexample`, `C84_exact`, `C85_to_float_partial`, `C85_view_counterexample`, `C86_negative`, `C86_read_iff`, `C86_repr_partial`, `C86_exact`, `C86_hours_counterexample`, `C86_negative_counterexample`, `C89_order_partial`, `C89_magnitude_counterexample`, `C89_exact`, `C89_equal_partial`, `C90_simplify_partial`, `C90_terms_counterexample`, `C90_negative_counterexample`, `C90_int_partial`, `C90_int_negative_exact`, `C91_exact`, `C91_ceil_partial`, `C91_back_partial`, `C91_range_counterexample`, `C92_equality_partial`, `C92_close`, `C92_order_counterexample`, `C92_infinite_counterexample`, `C92_magnitude_counterexample`, `C93_exact`, `C93_ieee`, `C93_exact_counterexample`, `C95_fade_counterexample`, `C95_number_partial`, `C95_scale_counterexample`, `C96_partial`, `C96_mixed_counterexample`, `C97_reset_partial`, `C97_interval_counterexample`, `C97_alarm_counterexample`, `C98_exact`, `C101_printf`, `StaticString.C102_size`, `StaticString.C103_strip_partial`, `StaticString.C103_ends_partial`, `C104_convert`, `C104_back`, `C105_order_partial`, `C105_order_counterexample`, `C109_exact`, `C111_geometric`, `C111_settles_partial`, `C111_overflow_counterexample`, `C111_stalls_counterexample`, `PID.C112_float_partial`, `PID.C112_float_lower_partial`, `C112_ramp`, `C112_limit_partial`, `C112_lower_partial`, `C112_stalls_counterexample`, `C113_unwinds_partial`, `C113_bounded`, `C113_setpoint_counterexample`, `C113_float_partial`, `C113_rounding_counterexample`, `C114_arduino`, `C114_history`, `C114_lines`, `C115_whole_replies`, `C116_xyz_partial`, `C116_xy_partial`, `C116_origin_counterexample`, `C116_rounded_partial`, `C116_rounded_xy_partial`, `C117_sum_partial`, `C118_list`, `C120_debug_partial`, `C120_emplace_front_counterexample`, `C121_full_partial`, `C121_overflow_counterexample`, `C121_underflow_counterexample`, `ES.C122_destroy_partial`, `ES.C122_asserts_counterexample`, `ES.C122_leak_counterexample`, `Pipe.C123_exact`, `Pipe.C123_text_partial`, `Pipe.C123_comma_counterexample`, `Pipe.C123_capacity_counterexample`, `Pipe.C123_tick_counterexample`, `C124_sum_partial`, `C124_compare_partial`, `C124_finer`, `C124_order_partial`, `C124_error_partial`, `C124_coarse_counterexample`, `C125_quotient_partial`, `C125_short_counterexample`, `C125_rounded_counterexample`, `C125_overflow_counterexample`, `C126_scaled_partial`, `C126_order`, `C126_large_counterexample`, `C126_truncated_counterexample`, `C126_special_counterexample`, `C127_exact`, `C127_count_partial`, `C127_negative_counterexample`, `C128_copies_partial`, `C128_exclusive_partial`, `C128_destroyed_copy_counterexample`, `C128_debug_counterexample`, `C128_dangling_counterexample`, `C129_difference_partial`, `C129_rollover_counterexample`, `C129_rounding_counterexample`, `C129_zephyr_partial`, `C129_zephyr_counterexample`, `C130_paced_partial`, `C130_punctual_partial`, `C130_drift`, `C130_drift_counterexample`, `C130_capacity_counterexample`, `C130_late_partial`, `C131_sum`, `C131_difference`, `C131_equal_partial`, `C131_equal_counterexample`, `C131_ratio`, `C131_underflow_counterexample`, `C132_numbers`, `C132_avr_numbers`, `C132_avr_counterexample`, `C133_own_partial`, `C133_front_counterexample`, `C133_insert_counterexample`, `C133_back_counterexample`, `C133_moved_counterexample`, `C134_line_stays_partial`, `C134_overwritten_counterexample`, `C135_mapped_range`, `C135_invert`, `C135_mean`, `Ring.C136_pop_partial`, `Ring.C136_pop_counterexample`, `Ring.C136_pop_full_counterexample`, `Ring.C136_push_partial`, `Ring.C136_push_counterexample`, `Ring.C136_handler_counterexample`, `C137_exact`, `LineBuf.C137_read_partial`, `LineBuf.C137_guarded_partial`, `LineBuf.C137_crlf_counterexample`, `LineBuf.C137_long_counterexample`, `LineBuf.C137_stuck_counterexample`, `C138_drift`, `C138_linear`, `C139_fields`, `C139_undefined`, `C140_inherited_partial`, `C140_at_exact`, `C140_const_loop_exact`, `C141_release_partial`, `C141_abort_counterexample`, `C141_outgoing_counterexample`, `C142_settles`, `C142_first`, `C142_swings`, `C143_ignored_counterexample`, `C143_acts_partial`, `C144_xyz_partial`, `C144_xy_partial`, `C144_distance_partial`, `C144_rounded_partial`, `C144_rounded_xy_partial`, `C144_division`, `C144_division_xy`, `C145_exact_partial`, `C145_drift_partial`, `C145_undo`, `C145_stalls_counterexample`, `C146_detach_counterexample`, `C147_band_partial`, `C147_first`, `C147_factor`, `C147_stuck_counterexample`, `C148_band`, `C148_maximal_counterexample`, `C149_pid_partial`, `C149_timer_counterexample`, `C149_late_partial`, `C149_late_counterexample`, `C150_text`, `C150_length`, `C150_distinct`, `C150_read_back_partial`, `C150_octal_counterexample`, `C151_reading_partial`, `C151_push_counterexample`, `C151_rollover_counterexample`, `C151_dangling_counterexample`, `C151_moved_counterexample`, `Pids.C152_in_place_partial`, `Pids.C152_deaf_counterexample`, `Pids.C152_dangling_counterexample`, `Pids.C152_assigned_counterexample`, `Pids.C152_meddles_counterexample`, `Plant.C153_preheat_partial`, `Plant.C153_none`, `Plant.C153_rollover_counterexample`, `Plant.C153_simulated_counterexample`, `Plant.C154_autotune_partial`, `Plant.C154_punctual_partial`, `Plant.C154_early_counterexample`, `C156_noise_partial`, `C156_spikes_partial`, `C156_dropouts_partial`, `C156_first_counterexample`, `C156_spikes_float_partial`, `C156_dropouts_float_partial`, `C157_until_next_partial`, `C157_day_partial`, `C157_gap_counterexample`, `C157_order_counterexample`, `C157_overlap_counterexample`, `C158_value`, `C158_band_partial`, `C158_band_counterexample`, `C158_scale_counterexample`, `C159_server_partial`, `C159_server`, `C159_fixed`, `C159_answered`, `C159_straddles_counterexample`, `C160_served`, `C160_reschedule`, `C160_again`, `C160_order_partial`, `C160_front_partial`, `C160_covered_partial`, `C160_later_counterexample`, `C160_earlier_counterexample`, `C160_twice`, `C161_exchange`, `C161_completes`, `C161_serial`, `C162_own`, `C162_requeue_partial`, `C162_straddles_counterexample`, `Narrow.C163_operations`, `Narrow.C163_alarm_partial`, `Narrow.C163_end_counterexample`, `Narrow.C163_set_counterexample`, `Narrow.C163_stuck_counterexample`, `Narrow.C163_interval_partial`, `Narrow.C163_interval_counterexample`, `Narrow.C163_text_counterexample`, `Narrow.C163_text_partial`, `Compound.C164_float_partial`, `Compound.C164_long_counterexample`, `Compound.C164_int_partial`, `Sleep.C165_alarm_partial`, `Sleep.C165_overdue_counterexample`, `Sleep.C165_periodic_partial`, `Sleep.C165_catch_up_partial`, `Sleep.C165_never_counterexample`, `Sleep.C165_hang_counterexample`, `Sleep.C165_back_counterexample`, `C166_push_partial`, `C166_push_ends`, `C166_pull`, `C166_history_partial`, `C166_read_only`, `C166_write_only`, `C166_bare`, `C167_valid`, `C167_width`, `C167_unique`, `C167_documented_partial`, `C167_mantissa_counterexample`, `C167_broad`, `C167_logarithmic_counterexample`, `C167_normalised`, `LineBuf.C168_kept_partial`, `LineBuf.C168_any`, `LineBuf.C168_rollover_counterexample`, `LineBuf.C168_zero_counterexample`, `C169_read`, `C169_dimmer_partial`, `C169_low_counterexample`, `C169_wide_counterexample`, `C169_percentage`, `C170_value_partial`, `C170_band_partial`, `C170_first_counterexample`, `C170_average_counterexample`, `C171_settles`, `C171_near`, `C171_first_order`, `C171_late`, `Ring.C174_pointer`, `Ring.C174_write`, `Ring.C174_left`, `C175_stack`, `C175_mapped`, `C175_invert`, `C175_average_partial`, `C175_mapped_exact`, `C175_invert_exact`, `C175_average_counterexample`, `C175_band_counterexample`, `C176_steps`, `C176_exact_partial`, `C176_float_partial`, `C176_float_counterexample`, `C177_push_back_exact`, `C177_push_front_exact`, `C177_pop_keeps`, `C177_stack_partial`, `C177_moved_counterexample`, `C177_front_counterexample`, `C178_exactly_once`, `C178_capacity`, `C178_handlers`, `C178_reaches`, `C178_delivers`, `C178_no_exception`, `C179_current`, `C180_off`, `C180_limits`, `C180_controller`, `C180_drift`, `C180_mapped`, `C180_differs`, `C181_product`, `C181_order_partial`, `C181_convert_partial`, `C181_order_counterexample`, `C181_kernel_partial`, `C183_paced`, `C183_utilisation`, `C183_overload`, `C184_scale`, `C184_backend`, `C184_on_error_partial`, `C184_first_reading_counterexample`, `C185_stack`, `C185_latch`, `C185_band_partial`, `C185_band_counterexample`, `C186_stack_partial`, `C186_rate`, `C186_short_counterexample`, `C186_band_partial`, `C186_band_counterexample`, `C186_throws_counterexample`, `C187_no_drift_partial`, `C187_meet`, `C187_out_of_step_counterexample`, `C188_reading`, `C188_setpoint`, `C188_series_partial`, `C188_derivative_counterexample`, `C189_stack_partial`, `C189_band`, `C189_mapped`, `C189_invert`, `C189_passthrough`, `C189_band_reset`, `C189_average_counterexample`, `C189_band_counterexample`, `C189_latch`, `C190_timer_partial`, `C190_alarm_partial`, `C190_interval_partial`, `C190_latch_partial`, `C190_pid_partial`, `C190_pipeline_partial`, `C190_alarm_counterexample`, `C190_latch_counterexample`, `C191_latch`, `C191_exact`, `C191_filtered`, `C191_minimal_counterexample`, `C191_maximal_counterexample`, `C192_alarm`, `C192_pipeline`, `C192_events`, `C192_events_throw`, `C192_pid`, `C192_pid_copies`, `C192_autotune`, `C192_output`, `C192_values`, `C192_filters`, `C192_tuning`, `C192_bandpass`, `C192_narrow_alarm`, `Ring.C193_sizes_partial`, `Ring.C193_newest_partial`, `C194_order_partial`, `C194_equal`, `C194_long_delay_counterexample`, `C195_vector_partial`, `C195_pipeline_partial`, `C196_alarm`, `C196_interval`, `C196_pid`, `C196_pid_later`, `C196_initialize_counterexample`, `C196_latch`, `C196_latch_counterexample`, `C196_pull`, `C196_pipeline_partial`, `C197_arduino_exact`, `C197_units_partial`, `C197_whole`, `C197_units_counterexample`, `C198_average`, `C198_step`, `C198_controller`, `C198_fresh`, `C198_limit_counterexample`, `C199_tunings`, `C199_sampling`, `C199_initialize`, `C199_float`, `C199_lstrip`, `C199_static_string`, `C199_simplify_partial`, `C199_simplify`, `C199_filters`, `C200_ring_partial`, `C200_ring_single`, `C200_ring_counterexample`, `C200_vector_front`, `C200_vector_back`, `C200_vector_insert_partial`, `C200_invert`, `C200_map`, `C200_direction`, `C200_sampling_counterexample`, `C200_limits_counterexample`, `Pid.C201_any_order`, `Pid.C201_any_order_exact`, `Pid.C201_sampling_partial`, `Pid.C201_sampling_counterexample`, `C202_pop_partial`, `C202_drop_partial`, `Pid.C203_rest`, `PID.C203_comes_to_rest`, `PID.C203_bump`, `PID.C203_float`, `PID.C204_pid`, `PID.C204_created`, `PID.C204_responses`, `Ewma.C204_average`, `Latch.C204_latch`, `Latch.C204_latch_run`, `PID.C205_timeless`, `PID.C205_jitter`, `PID.C205_late`, `PID.C206_pid`, `Latch.C206_latch`, `Filter.C206_ewma`, `Filter.C206_mapped`, `Filter.C206_inverter`, `Filter.C206_passthrough`, `Filter.C206_band`, `Ewma.C207_count`, `Ewma.C207_from_start`, `Ewma.C207_weight`, `Ewma.C207_longest`, `PID.C208_setpoint`, `PID.C208_float`, `C209_wear`, `C209_count`, `Band.C210_fresh`, `Band.C210_measured`, `Ewma.C211_average`, `Ewma.C211_average_float`, `Ewma.C211_frame_counterexample`, `PID.C211_controller`, `PID.C211_limit_counterexample`, `C212_no_loss`, `C212_used`, `C212_delay`, `C213_chain_used`, `C213_transfer`, `C213_hasty_counterexample`, `C214_used`.
