{"id": "C01", "title": "RingBuffer is a bounded FIFO queue", "statement": "Every history of single and bulk push (with or without rollover), single and bulk pop, peek and clear on a RingBuffer of capacity >= 1 returns exactly what a bounded first-in first-out queue of that capacity returns, and never touches memory outside its storage, in debug and in release builds.", "quantifier": "all element types, all capacities >= 1, all finite operation histories, all arguments, both build modes", "why_tests_cant": "a test fixes one capacity and one history; wrap-around, full/empty ambiguity and rollover interact in unboundedly many histories", "anchors": ["src/spine/structure/ringbuffer.hpp: RingBuffer::push, pop, peek_at, clear"]}
{"id": "C02", "title": "RingBuffer space accounting is consistent", "statement": "After every history of any public operations (including drop_first/drop_last with any argument), used_space() + free_space() = capacity, empty() iff used_space() = 0, full() iff free_space() = 0, and used_space() never exceeds the capacity.", "quantifier": "all capacities >= 1, all histories of all public operations", "why_tests_cant": "the accounting must survive every wrap position and every mix of rollover pushes and drops", "anchors": ["src/spine/structure/ringbuffer.hpp: used_space, free_space, empty, full, drop_last, drop_first"]}
{"id": "C03", "title": "Rollover keeps the newest elements", "statement": "Pushing any sequence of elements with rollover always succeeds and leaves exactly the newest `capacity` elements (of what was stored followed by what was pushed), in order; without rollover the buffer accepts exactly the prefix that fits and stored elements are untouched.", "quantifier": "all capacities >= 1, all reachable start states, all element sequences of any length", "why_tests_cant": "needs arbitrary start offset and arbitrary amounts of overrun", "anchors": ["src/spine/structure/ringbuffer.hpp: push"]}
{"id": "C04", "title": "drop_last / drop_first remove exactly the requested elements", "statement": "drop_last(n) removes the min(n, used) newest elements and drop_first(n) the min(n, used) oldest; both return the number removed and leave the others in order.", "quantifier": "all capacities >= 1, all reachable states, all n", "why_tests_cant": "the failing case (n = 0 on a completely full buffer) is one point in a large state space; tests use n > 0", "anchors": ["src/spine/structure/ringbuffer.hpp: drop_last, drop_first"]}
{"id": "C05", "title": "overrun_space counts the elements lost to rollover", "statement": "overrun_space() equals the number of elements overwritten by rollover pushes since the last successful pop.", "quantifier": "all capacities >= 1, all histories of push/pop", "why_tests_cant": "needs a ghost count over all histories, and capacity 1 is a special case", "anchors": ["src/spine/structure/ringbuffer.hpp: push, pop, overrun_space, drop_last"]}
{"id": "C06", "title": "Bulk push and pop are exact", "statement": "Bulk pop of n elements either returns n and delivers the n oldest elements, or returns 0 and leaves the buffer and the destination unchanged; bulk push of a block without rollover stores exactly its longest prefix that fits and returns its length.", "quantifier": "all capacities >= 1, all reachable states, all block lengths", "why_tests_cant": "all-or-nothing must hold for each start offset and length", "anchors": ["src/spine/structure/ringbuffer.hpp: push(const T*, size_t, bool), pop(T*, size_t)"]}
{"id": "C07", "title": "length_of_next_line finds the first delimiter", "statement": "length_of_next_line() is 0 iff no buffered character is a delimiter, otherwise it is one plus the number of characters before the first delimiter; has_line() agrees with it.", "quantifier": "all delimiter sets, all capacities >= 1, all reachable buffer states", "why_tests_cant": "buffer contents and wrap positions are unbounded", "anchors": ["src/spine/structure/linebuffer.cpp: LineBuffer::length_of_next_line", "src/spine/structure/linebuffer.hpp: has_line"]}
{"id": "C08", "title": "get_next_line returns the next line, NUL-terminated, inside the caller's buffer", "statement": "If the first complete line with its delimiter fits in the caller's buffer, get_next_line stores the line without delimiter followed by NUL, removes the line and the delimiter from the buffer and returns the line length; otherwise it returns 0 and changes neither the buffer nor the caller's memory. It never writes at or past max_length.", "quantifier": "all delimiter sets, capacities, reachable buffer states, caller buffer sizes", "why_tests_cant": "off-by-one at max_length must be excluded for each line length and each size", "anchors": ["src/spine/structure/linebuffer.cpp: LineBuffer::get_next_line"]}
{"id": "C09", "title": "Reading line by line loses and reorders nothing", "statement": "For any byte string that fits in the buffer, pushed in any chunking and interleaved with line reads in any order, the lines returned by get_next_line (destination large enough) followed by what is still buffered are exactly the byte string split at its delimiters.", "quantifier": "all byte strings, all chunkings, all interleavings of pushes and reads that do not overrun the buffer", "why_tests_cant": "quantifies over histories of unbounded length", "anchors": ["src/spine/structure/linebuffer.cpp: get_next_line, length_of_next_line", "src/spine/structure/ringbuffer.hpp: push, pop"]}
{"id": "C10", "title": "get_next_line_view shows the next line", "statement": "When the buffer has a complete line, get_next_line_view() returns a view of exactly that line's characters and reads no memory outside the buffer's storage.", "quantifier": "all delimiter sets, capacities, reachable buffer states", "why_tests_cant": "only fails when the line straddles the physical end of the storage, which the short tests never reach", "anchors": ["src/spine/structure/linebuffer.cpp: LineBuffer::get_next_line_view", "src/spine/structure/ringbuffer.hpp: peek_at(T**, size_t)"]}
{"id": "C11", "title": "drop_next_line removes exactly one line", "statement": "drop_next_line() removes exactly the first line and its delimiter, returns true and leaves the rest in order; with no complete line it removes nothing and returns false.", "quantifier": "all delimiter sets, capacities, reachable buffer states", "why_tests_cant": "buffer contents and wrap positions are unbounded", "anchors": ["src/spine/structure/linebuffer.cpp: LineBuffer::drop_next_line"]}
{"id": "C12", "title": "pull_in_data conserves the byte stream", "statement": "pull_in_data() reads a prefix of the bytes available on the underlying stream, in order; afterwards the input buffer holds the newest `capacity` bytes of (old contents followed by the bytes read) and the unread bytes remain on the stream. It terminates.", "quantifier": "all stream contents, all buffer states, all delimiter sets", "why_tests_cant": "unbounded stream contents and buffer states", "anchors": ["src/spine/io/stream/buffered_stream.cpp: BufferedStream::pull_in_data"]}
{"id": "C13", "title": "pull_in_data never destroys a complete line", "statement": "Bytes overwritten by pull_in_data contain no delimiter: a complete line received earlier is never damaged by receiving more data, over any number of calls.", "quantifier": "all stream contents, all buffer states, all call histories", "why_tests_cant": "the loss needs an overlong line, a full buffer and a second call; tests stop after one call", "anchors": ["src/spine/io/stream/buffered_stream.cpp: BufferedStream::pull_in_data", "src/spine/structure/ringbuffer.hpp: overrun_space"]}
{"id": "C14", "title": "push_out_data sends the output buffer in order, each byte once", "statement": "push_out_data() writes a prefix of the output buffer to the stream in order, each byte exactly once, and the bytes not written remain buffered; it stops only when the stream has no room or the buffer is empty.", "quantifier": "all buffer contents, all amounts of room on the stream, all streams whose write accepts a byte whenever it reports room", "why_tests_cant": "unbounded contents and room", "anchors": ["src/spine/io/stream/buffered_stream.cpp: BufferedStream::push_out_data"]}
{"id": "C15", "title": "Buffered stream end-to-end order", "statement": "Over any interleaving of host-side inject, pull_in_data and buffered reads that never overruns a buffer, the bytes read by the application followed by those still in transit are exactly the bytes accepted by inject, in order; the same holds for the output direction.", "quantifier": "all interleavings, all byte values, all buffer sizes", "why_tests_cant": "a property of every schedule of the producer, the driver and the consumer", "anchors": ["src/spine/io/stream/buffered_stream.cpp", "src/spine/io/stream/implementations/mock.hpp: MockStream"]}
{"id": "C16", "title": "Committing a transaction consumes one line and keeps the reply", "statement": "commit() removes exactly the line the transaction was opened on from the input buffer and leaves every byte queued through the transaction in the output buffer, appended in order after what was there.", "quantifier": "all buffer states with a complete line, all sequences of outgoing() calls", "why_tests_cant": "unbounded replies and buffer states", "anchors": ["src/spine/io/stream/transaction.cpp: Transaction::commit, outgoing, finalize"]}
{"id": "C17", "title": "Aborting a transaction takes back the reply", "statement": "abort() leaves the output buffer as it was when the transaction was opened (when nobody else wrote to or drained it meanwhile) and removes exactly the transaction's line from the input buffer.", "quantifier": "all buffer states, all sequences of outgoing() calls", "why_tests_cant": "the failing case (nothing queued while the output buffer is exactly full) is a single point tests do not visit", "anchors": ["src/spine/io/stream/transaction.cpp: Transaction::abort, undo", "src/spine/structure/ringbuffer.hpp: drop_last"]}
{"id": "C18", "title": "A transaction is finalized exactly once", "statement": "Whatever sequence of commit, abort and destruction follows, the transaction consumes exactly one line in total; destruction without commit or abort behaves as commit; after moving the transaction, destroying the moved-from object has no effect.", "quantifier": "all histories of commit/abort/move/destroy on one transaction", "why_tests_cant": "quantifies over histories", "anchors": ["src/spine/io/stream/transaction.cpp: finalize, ~Transaction", "src/spine/io/stream/transaction.hpp: move constructor"]}
{"id": "C19", "title": "Vector behaves as a bounded sequence", "statement": "Every history of push_back, emplace_back, push_front, emplace_front, insert, pop_front, fill, clear, peek, operator[], size/empty/full/max_size on a Vector that respects capacity and non-emptiness returns exactly what a plain sequence returns, and touches only its own storage.", "quantifier": "all element types, capacities, histories within the documented preconditions, both build modes", "why_tests_cant": "elements shift and compact inside a fixed storage window, histories are unbounded", "anchors": ["src/spine/structure/vector.hpp: Vector"]}
{"id": "C20", "title": "Vector::pop_back returns the last element", "statement": "pop_back() on a non-empty Vector returns the last element and removes exactly it.", "quantifier": "all reachable non-empty vectors", "why_tests_cant": "fails only for the last remaining element after a pop_front", "anchors": ["src/spine/structure/vector.hpp: Vector::pop_back"]}
{"id": "C21", "title": "Vector::remove(i) removes the i-th element", "statement": "remove(i) with i < size() returns the i-th element and leaves the others in order, reading only the vector's storage.", "quantifier": "all reachable vectors, all valid indices", "why_tests_cant": "tests remove only from vectors whose window starts at storage index 0 and which are not full", "anchors": ["src/spine/structure/vector.hpp: Vector::remove"]}
{"id": "C22", "title": "Vector iteration visits every element once, in order", "statement": "Forward iteration from begin() to end() visits exactly the elements in order; reverse iteration from rbegin() to rend() visits exactly the elements in reverse order, for every window position including the empty vector.", "quantifier": "all reachable vectors", "why_tests_cant": "reverse iteration relies on index wrap-around below zero", "anchors": ["src/spine/structure/vector.hpp: begin, end, rbegin, rend", "src/spine/structure/array.hpp: Iterator"]}
{"id": "C23", "title": "Vector operations never leave the storage", "statement": "No history of public Vector operations makes the vector read or write outside its storage when each insertion is made while not full() and each removal on a non-empty vector with a valid index.", "quantifier": "all histories within the preconditions, both build modes", "why_tests_cant": "memory safety over all histories", "anchors": ["src/spine/structure/vector.hpp: Vector"]}
{"id": "C24", "title": "Shared pointers in a Vector keep exact reference counts", "statement": "For a Vector of shared pointers, after any history of insertions and consumed removals each object's reference count equals the number of vector slots plus outside handles referring to it: the raw memory moves inside the vector neither leak nor over-release.", "quantifier": "all histories of push_back/push_front/insert/pop_front/remove whose results are consumed", "why_tests_cant": "memmove/memset on reference-counted elements is only right if slots outside the window are null in every reachable state", "anchors": ["src/spine/structure/vector.hpp: push_front, insert, rearrange, remove, pop_front, pop_back"]}
{"id": "C25", "title": "Vector::front() and back() agree with the ends of the sequence", "statement": "On a non-empty Vector, front() is the first element and back() is the last element.", "quantifier": "all reachable non-empty vectors", "why_tests_cant": "front() is inherited from the fixed array and ignores the window start", "anchors": ["src/spine/structure/array.hpp: Array::front", "src/spine/structure/vector.hpp: Vector::back"]}
{"id": "C26", "title": "Array memory is never freed twice", "statement": "Over any history of construction, copy, move, assignment and destruction of Arrays, no allocation is freed twice and no foreign memory is freed.", "quantifier": "all histories over any number of Array objects", "why_tests_cant": "ownership bugs need specific interleavings of copies, moves, swaps and destructions", "anchors": ["src/spine/structure/array.hpp: Array constructors, operator=, swap, ~Array"]}
{"id": "C27", "title": "Array reverse iteration visits every element", "statement": "Reverse iteration over an Array visits exactly its elements in reverse order, through const and non-const references.", "quantifier": "all array sizes and contents", "why_tests_cant": "for all sizes; the const overloads are never exercised by tests", "anchors": ["src/spine/structure/array.hpp: rbegin, rend"]}
{"id": "C28", "title": "Pool hands out only free objects and finds one whenever one exists", "statement": "acquire() on a populated pool returns an object nobody else holds whenever such an object exists, returns null otherwise, and never disturbs objects in use.", "quantifier": "all pool sizes up to 65535, all usage patterns, all acquire histories", "why_tests_cant": "the rotating search start and arbitrary release orders give unboundedly many states", "anchors": ["src/spine/structure/pool.hpp: Pool::acquire"]}
{"id": "C29", "title": "Pool::acquire terminates", "statement": "acquire() returns after finitely many steps for every pool size.", "quantifier": "all pool sizes and usage patterns", "why_tests_cant": "needs more than 65535 objects all in use", "anchors": ["src/spine/structure/pool.hpp: Pool::acquire, _lookup_index"]}
{"id": "C30", "title": "Destroying a pool releases all its objects", "statement": "When a Pool whose objects are all returned is destroyed, every object is released.", "quantifier": "all pool sizes", "why_tests_cant": "a leak is invisible to functional tests and the count depends on the size", "anchors": ["src/spine/structure/pool.hpp: ~Pool", "src/spine/eventsystem/eventsystem.cpp: ~EventSystem"]}
{"id": "C31", "title": "Kernel time arithmetic is exact", "statement": "Sums, differences and comparisons of k_time values of the same unit equal the integer sums, differences and comparisons.", "quantifier": "all 64-bit values in range", "why_tests_cant": "integer values pass through single precision floats; the error only shows above 2^24 (4.7 hours in ms)", "anchors": ["src/spine/structure/units/primitives/unit.hpp: Unit::from_other, operator+, operator-, comparison operators"]}
{"id": "C32", "title": "Kernel time conversion is exact", "statement": "Converting a k_time value between us, ms, s, m, h, d gives the exact value, rounded half away from zero when converting to a coarser unit.", "quantifier": "all unit pairs, all values in range", "why_tests_cant": "conversion factors such as 1000 are computed in single precision", "anchors": ["src/spine/structure/units/primitives/unit.hpp: Unit::from_other", "src/spine/structure/units/primitives/magnitudes.hpp"]}
{"id": "C33", "title": "An alarm fires at its deadline and stays fired", "statement": "An alarm set for t ms from now is reported expired at every query made at or after the deadline, at no query made before it, and once reported expired stays expired.", "quantifier": "all start times, delays, query schedules with a monotone clock", "why_tests_cant": "all clock histories", "anchors": ["src/spine/structure/time/timers.hpp", "src/spine/structure/time/timers.cpp: AlarmTimer"]}
{"id": "C34", "title": "Interval timer rate and catch-up", "statement": "Over any polling schedule, an IntervalTimer reports at most one expiry per elapsed interval; with catch-up no interval is lost: after each expiry the next deadline is exactly one interval after the previous deadline.", "quantifier": "all intervals, all polling schedules with a monotone clock", "why_tests_cant": "all polling schedules", "anchors": ["src/spine/structure/time/timers.cpp: IntervalTimer::expired"]}
{"id": "C35", "title": "The pipeline is always in deadline order, first-come first-served among equals", "statement": "After any history of push and expire with the clock advancing arbitrarily between operations, the pending futures are ordered by deadline, and futures with equal deadlines keep their insertion order.", "quantifier": "all histories, all delays, all capacities", "why_tests_cant": "ordering over all insertion orders and clock advances", "anchors": ["src/spine/eventsystem/pipeline.hpp: Pipeline::push, expire"]}
{"id": "C36", "title": "Scheduled events fire exactly once, never early, in order", "statement": "loop() delivers every event whose deadline has been reached, and only those, in deadline order (first-come first-served among equals); over any history each scheduled event is delivered exactly once or is still pending.", "quantifier": "all histories of schedule / clock advance / loop, all handlers including ones that schedule more events, attach handlers and call loop()", "why_tests_cant": "all interleavings of scheduling, time and handler behaviour", "anchors": ["src/spine/eventsystem/eventsystem.cpp: EventSystem::loop, schedule, trigger"]}
{"id": "C37", "title": "Events are recycled: capacity is never lost", "statement": "After any history, the number of further events that can be obtained equals the configured capacity minus the events currently pending or held; no event object is lost or handed out while still pending.", "quantifier": "all histories within capacity", "why_tests_cant": "leaks of pool slots appear only over long histories", "anchors": ["src/spine/eventsystem/eventsystem.cpp", "src/spine/structure/pool.hpp", "src/spine/eventsystem/pipeline.hpp"]}
{"id": "C38", "title": "Obtaining an event beyond capacity is handled", "statement": "Scheduling more events than the configured capacity is reported or ignored without undefined behaviour.", "quantifier": "all histories", "why_tests_cant": "tests never exhaust the pool from nested handlers", "anchors": ["src/spine/eventsystem/eventsystem.cpp: EventSystem::event, schedule, trigger", "src/spine/eventsystem/pipeline.hpp: Pipeline::push"]}
{"id": "C39", "title": "Each attached handler is called exactly once per trigger, in attach order", "statement": "Triggering an event calls every handler attached to its id exactly once, in the order they were attached, and no handler attached to another id.", "quantifier": "all attach histories, all ids, all handler counts within capacity", "why_tests_cant": "all attach orders", "anchors": ["src/spine/eventsystem/eventsystem.cpp: EventSystem::attach, trigger"]}
{"id": "C40", "title": "loop() sleeps no longer than allowed", "statement": "When loop() sleeps it wakes no later than the next deadline and sleeps no longer than the configured maximum delay.", "quantifier": "all pipelines, clocks and configurations", "why_tests_cant": "the maximum is only visible when the next deadline is far away", "anchors": ["src/spine/eventsystem/eventsystem.cpp: EventSystem::loop"]}
{"id": "C41", "title": "SRLatch respects minimal on and off times", "statement": "Over any sequence of readings and clock advances, the latch stays on at least the minimal on time and off at least the minimal off time once it has switched.", "quantifier": "all configurations, all reading sequences, all clock advances", "why_tests_cant": "all input histories", "anchors": ["src/spine/controller/sr_latch.cpp: SRLatch::new_reading"]}
{"id": "C42", "title": "SRLatch respects the maximal on time", "statement": "With a maximal on time configured, whenever the latch has been on for longer than that, the next reading switches it off.", "quantifier": "all configurations, all reading sequences, all clock advances", "why_tests_cant": "fails only for repeated high readings arriving faster than the limit", "anchors": ["src/spine/controller/sr_latch.cpp: SRLatch::new_reading, set"]}
{"id": "C43", "title": "SRLatch hysteresis", "statement": "Between the low and high thresholds the latch keeps its state (unless a maximal time forces a change); above high it goes on and below low it goes off once the minimal times allow.", "quantifier": "all configurations, all readings", "why_tests_cant": "all input histories", "anchors": ["src/spine/controller/sr_latch.cpp: SRLatch::new_reading"]}
{"id": "C44", "title": "PID output stays within its limits", "statement": "After any history of updates, tuning changes and limit changes, the controller output is within the configured output limits (or not a number), whatever the inputs, gains and floating point rounding.", "quantifier": "all histories, all inputs, gains, limits, and every arithmetic (including IEEE single precision)", "why_tests_cant": "all inputs and all rounding behaviours", "anchors": ["src/spine/controller/implementations/pid/pid_controller.cpp: PIDController::update, set_output_limits"]}
{"id": "C45", "title": "PID recomputes once per sampling period", "statement": "update() changes the output only if at least one sampling period has passed since the last computation; otherwise it leaves output and internal state unchanged.", "quantifier": "all histories and clock advances", "why_tests_cant": "all polling schedules", "anchors": ["src/spine/controller/implementations/pid/pid_controller.cpp: PIDController::update"]}
{"id": "C46", "title": "Changing the PID sampling time keeps the effective gains", "statement": "After set_sampling_time the integral and derivative gains per second are the same as before.", "quantifier": "all old and new sampling times, all gains", "why_tests_cant": "the ratio is computed with integer division; only multiples of the old period work", "anchors": ["src/spine/controller/implementations/pid/pid_controller.cpp: set_sampling_time"]}
{"id": "C47", "title": "PID auto-tuner drives only the configured outputs and finishes", "statement": "Every output requested by the auto-tuner is the configured minimum or maximum; it finishes after exactly the configured number of cycles, and the reported gains are the average over the averaged cycles.", "quantifier": "all input histories, all cycle counts", "why_tests_cant": "the averaging divisor is wrong by a factor depending on the cycle count", "anchors": ["src/spine/controller/implementations/pid/pid_tuner.cpp: PIDAutotuner::tune_pid"]}
{"id": "C48", "title": "EWMA stays between the extremes of its inputs", "statement": "The filter's value always lies between the minimum and maximum of the samples seen since the last reset, in IEEE single precision arithmetic.", "quantifier": "all sample sequences, all K", "why_tests_cant": "all sample sequences and rounding", "anchors": ["src/spine/filter/implementations/ewma.hpp: EWMA::value"]}
{"id": "C49", "title": "BandPass rejects outliers only up to the limit", "statement": "A sample outside the band is rejected (the value stays) as long as the rejection limit is not exceeded; at most `limit` consecutive samples are rejected; samples inside the band are always accepted.", "quantifier": "all sample sequences and configurations", "why_tests_cant": "all sample sequences", "anchors": ["src/spine/filter/implementations/bandpass.hpp: BandPass"]}
{"id": "C50", "title": "MappedRange maps its input range linearly onto its output range", "statement": "Outputs always lie in the output range, input limits map to output limits, and the mapping is monotone.", "quantifier": "all ranges and samples (exact arithmetic)", "why_tests_cant": "all real inputs", "anchors": ["src/spine/filter/implementations/mapped_range.hpp"]}
{"id": "C51", "title": "Filter stack is the composition of its filters", "statement": "A stack's output is the last filter's output when every sample is passed through the filters in attachment order; an Invert filter applied twice is the identity.", "quantifier": "all stacks of arbitrary stateful filters, all sample sequences", "why_tests_cant": "all filter combinations", "anchors": ["src/spine/filter/filterstack.hpp", "src/spine/filter/implementations/invert.hpp"]}
{"id": "C52", "title": "Schedule::value_at", "statement": "value_at(t) is the value of the first listed block that contains t, where a block running past midnight also contains the early hours of the next day, and 0 when no block contains t.", "quantifier": "all block lists, all times of day", "why_tests_cant": "wrap-around at midnight for all start/duration combinations", "anchors": ["src/spine/structure/time/schedule.cpp: Schedule::value_at"]}
{"id": "C53", "title": "Schedule::start_of_next_block", "statement": "start_of_next_block(t) is the earliest block start strictly after t today, or 24h if there is none.", "quantifier": "all block lists, all times of day", "why_tests_cant": "tests only use chronologically listed blocks", "anchors": ["src/spine/structure/time/schedule.cpp: Schedule::start_of_next_block"]}
{"id": "C54", "title": "Result chains short-circuit", "statement": "In a chain of processing steps starting from an intermediary result, steps run in order until one yields success or failure, which is the result of the chain; later steps are not run.", "quantifier": "all chains of any length, all step functions", "why_tests_cant": "all step functions", "anchors": ["src/spine/structure/result.hpp: Result::chain"]}
{"id": "C55", "title": "Result combinators", "statement": "map, map_error, map_intermediary, and_then and or_else act only on their own state and pass the other states through unchanged; they satisfy the functor and monad laws; match calls exactly the handler for the state.", "quantifier": "all results, all functions", "why_tests_cant": "all functions", "anchors": ["src/spine/structure/result.hpp: Result"]}
{"id": "C56", "title": "String stripping", "statement": "lstrip removes exactly the leading delimiter characters and rstrip exactly the trailing ones, without reading outside the string.", "quantifier": "all strings and delimiter sets", "why_tests_cant": "empty and all-delimiter strings, and the far end of the string", "anchors": ["src/spine/core/utils/string.cpp: lstrip, rstrip"]}
{"id": "C57", "title": "starts_with and ends_with", "statement": "starts_with(s, n) iff n is a prefix of s and ends_with(s, n) iff n is a suffix of s, for all s and n.", "quantifier": "all strings", "why_tests_cant": "needles longer than the string", "anchors": ["src/spine/core/utils/string.cpp: starts_with, ends_with"]}
{"id": "C58", "title": "parse_time accepts exactly number-plus-unit strings", "statement": "parse_time returns the time for strings consisting of decimal digits followed by a known unit and nothing for all other strings.", "quantifier": "all strings", "why_tests_cant": "all strings, including the empty number and very large numbers", "anchors": ["src/spine/core/utils/time_repr.cpp: parse_time"]}
{"id": "C59", "title": "Log messages stay inside the log buffer", "statement": "Formatting a log message of any length never writes outside the message buffer.", "quantifier": "all message lengths, tags, levels, buffer sizes", "why_tests_cant": "all message lengths", "anchors": ["src/spine/core/logging.cpp: print"]}
{"id": "C60", "title": "Year day and leap years", "statement": "The computed day-of-year for a valid date equals the Gregorian calendar's, and leap years are the Gregorian leap years.", "quantifier": "all dates", "why_tests_cant": "all years", "anchors": ["src/spine/structure/time/datetime.cpp: isleapYear, calcYearDay"]}
{"id": "C61", "title": "Fading an output ends at the setpoint", "statement": "After fade_to the hardware has been driven through values within [0,1] and ends at the requested setpoint, which value() reports.", "quantifier": "all setpoints, increments, start values", "why_tests_cant": "only fails when the distance is not a multiple of the increment", "anchors": ["src/spine/platform/gpio.cpp: AnalogueOutput::fade_to"]}
{"id": "C62", "title": "Compound units add like fractions", "statement": "The value of a sum/difference/product of compound units equals the sum/difference/product of their values; dividing by zero is reported, not computed.", "quantifier": "all numerators and denominators (exact arithmetic)", "why_tests_cant": "all values", "anchors": ["src/spine/structure/units/primitives/compound_unit.hpp"]}
{"id": "C63", "title": "Compile-time helpers", "statement": "concat joins its arguments' characters in order followed by one NUL; the unique variant's type list has the same members without duplicates.", "quantifier": "all argument lists, all type lists", "why_tests_cant": "all lists", "anchors": ["src/spine/core/utils/concatenate.hpp", "src/spine/core/meta/unique_type_variant.hpp"]}
{"id": "C64", "title": "Stack is last-in first-out", "statement": "Any history of push and pop within capacity returns elements in last-in first-out order.", "quantifier": "all histories", "why_tests_cant": "all histories", "anchors": ["src/spine/structure/stack.hpp"]}
{"id": "C65", "title": "loop() terminates when handlers only schedule into the future", "statement": "If every handler only schedules events with a positive delay and the clock does not advance during the loop, loop() fires at most the events pending when it starts and returns.", "quantifier": "all pipelines and handlers", "why_tests_cant": "termination over all handlers", "anchors": ["src/spine/eventsystem/eventsystem.cpp: EventSystem::loop"]}
{"id": "C66", "title": "Destroying a Vector releases its elements", "statement": "When a Vector of owning elements (shared pointers) is destroyed, every reference its elements held is released.", "quantifier": "all vectors reachable by insertions and consumed removals", "why_tests_cant": "a leak has no functional effect, and depends on the history only through what is still in the vector", "anchors": ["src/spine/structure/array.hpp: ~Array", "src/spine/structure/vector.hpp: Vector"]}
{"id": "C67", "title": "Arrays free what they allocate", "statement": "When all Arrays of a program have been destroyed, all memory they allocated has been freed.", "quantifier": "all histories of construction, copy, move, assignment, swap and destruction over any number of Array objects", "why_tests_cant": "leaks have no functional effect and depend on who owned what before an assignment", "anchors": ["src/spine/structure/array.hpp: operator=(const Array&), operator=(Array&&), ~Array"]}
{"id": "C68", "title": "Copying an Array gives an independent array with equal contents", "statement": "After copy construction or copy assignment the copy has the size and elements of the original, and later changes to or destruction of the original do not affect it.", "quantifier": "all reachable states, all contents", "why_tests_cant": "an aliasing copy looks right until one of the two changes or dies", "anchors": ["src/spine/structure/array.hpp: Array(const Array&), operator=(const Array&)"]}
{"id": "C69", "title": "swap exchanges two Arrays", "statement": "After a.swap(b), a has the size and elements b had and vice versa.", "quantifier": "all pairs of arrays", "why_tests_cant": "visible only with arrays of different sizes or ownership", "anchors": ["src/spine/structure/array.hpp: swap"]}
{"id": "C70", "title": "Moving an Array transfers its contents and leaves the source empty", "statement": "After a move construction or move assignment the target has the size and elements of the source, and the source is an empty array that can be used as such.", "quantifier": "all arrays", "why_tests_cant": "moved-from objects are rarely looked at", "anchors": ["src/spine/structure/array.hpp: Array(Array&&), operator=(Array&&)"]}
{"id": "C71", "title": "Iterator increment and decrement", "statement": "++it and it++ advance an iterator by one element and --it undoes it; the value of it++ is the position before the increment.", "quantifier": "all iterators", "why_tests_cant": "range-for uses only the prefix form", "anchors": ["src/spine/structure/array.hpp: ArrayIterator::operator++, operator--, ArrayReverseIterator"]}
{"id": "C72", "title": "Array is a fixed-size array", "statement": "Construction by size, by size and value, from a list and over caller's memory gives exactly these elements; writing a valid index, fill and list assignment change exactly the elements they name, front/back/size agree with the contents, and writing to one owning array changes no other owning array.", "quantifier": "all contents, all reachable states, all valid indices", "why_tests_cant": "for all sizes and sharing patterns", "anchors": ["src/spine/structure/array.hpp: Array, operator[], at, fill, front, back, size"]}
{"id": "C73", "title": "Stack::pop releases the popped element", "statement": "After pop() the stack no longer holds a reference to the popped element.", "quantifier": "all histories of pushes and pops of shared pointers", "why_tests_cant": "a reference kept too long has no functional effect in a test", "anchors": ["src/spine/structure/stack.hpp: pop", "src/spine/structure/vector.hpp: pop_back"]}
{"id": "C74", "title": "IntervalTimer::future() is when the timer expires", "statement": "expired() reports true at every query made at or after the time future() names, and false at every earlier one.", "quantifier": "all timers, all query times", "why_tests_cant": "a boundary of one millisecond among all values of two 64-bit times", "anchors": ["src/spine/structure/time/timers.cpp: IntervalTimer::expired, IntervalTimer::future, IntervalTimer::time_until_next"]}
{"id": "C75", "title": "Timer accounts for all elapsed time", "statement": "The times reported by successive calls of time_since_last() add up to the time elapsed since the timer was created.", "quantifier": "all call schedules, including clock ticks within a call", "why_tests_cant": "needs a clock tick at one particular point within a call", "anchors": ["src/spine/structure/time/timers.cpp: Timer::time_since_last, Timer::reset"]}
{"id": "C76", "title": "The PID recovers from an invalid reading", "statement": "After a reading that is not a number, later valid readings give a valid output again.", "quantifier": "all controllers, all later histories", "why_tests_cant": "a poisoned integral shows only in readings after the bad one", "anchors": ["src/spine/controller/implementations/pid/pid_controller.cpp: compute", "src/spine/controller/pid.cpp: new_reading"]}
{"id": "C77", "title": "tunings() returns the gains that were set", "statement": "tunings() returns the gains last set, so that setting the tunings to what was read changes nothing.", "quantifier": "all gains, sampling times and directions", "why_tests_cant": "only a round trip with a sampling time other than one second shows it", "anchors": ["src/spine/controller/implementations/pid/pid_controller.cpp: get_tunings, set_tunings", "src/spine/controller/pid.cpp: tunings"]}
{"id": "C78", "title": "The configured proportionality is used", "statement": "The controller acts on measurement or on error as configured.", "quantifier": "all configurations, all histories", "why_tests_cant": "both modes give the same output to a constant reading", "anchors": ["src/spine/controller/pid.cpp: PID"]}
{"id": "C79", "title": "The PID follows the discrete PID law", "statement": "While the output and the integral stay off the limits, the output after any sequence of readings is kp times the error (or the accumulated measurement term) plus ki times the sum of the errors minus kd times the last change of the input.", "quantifier": "all sequences of readings, setpoints and gains, exact arithmetic", "why_tests_cant": "the law is over the whole history", "anchors": ["src/spine/controller/implementations/pid/pid_controller.cpp: compute"]}
{"id": "C80", "title": "Direction reversal negates the gains exactly once", "statement": "Whatever the order of set_tunings, set_sampling_time and set_direction, the gains have the sign of the current direction; reversing twice restores the gains.", "quantifier": "all sequences of these calls", "why_tests_cant": "a double or missing negation needs a particular order of calls", "anchors": ["src/spine/controller/implementations/pid/pid_controller.cpp: set_tunings, set_controller_direction, initialize"]}
{"id": "C81", "title": "The relay tuner reports the gains of relay tuning", "statement": "At the end of each cycle of an oscillation the gains are those of the Ziegler-Nichols relay method for the cycle's period (measured from the end of the cycle before) and its amplitude (half the difference of the highest and the lowest reading of the cycle).", "quantifier": "all oscillations, set points, hystereses, output ranges and modes", "why_tests_cant": "depends on which readings of a cycle are counted towards its extremes, for all shapes of a cycle", "anchors": ["src/spine/controller/implementations/pid/pid_tuner.cpp: PIDAutotuner::do_autotune"]}
{"id": "C82", "title": "The EWMA starts as a mean", "statement": "As long as no more samples have come than the frame is long, the value is the mean of all samples; after that, each new sample has the weight 1/K.", "quantifier": "all frame lengths K and all sequences of samples, exact arithmetic", "why_tests_cant": "a wrong weight in one step shows only against the mean of the whole history", "anchors": ["src/spine/filter/implementations/ewma.hpp: EWMA::sample"]}
{"id": "C83", "title": "A DateTime of the compilation has the date and the time of the compilation", "statement": "DateTime(__DATE__, __TIME__) gives a DateTime with that year, month, day, hour, minute and second.", "quantifier": "all dates and times as the preprocessor writes them", "why_tests_cant": "the tests use a few dates; wrong results depend on particular digits and on uninitialised memory", "anchors": ["src/spine/structure/time/datetime.cpp: DateTime(const char*, const char*)"]}
{"id": "C84", "title": "Timestamps since 1970 and since 2000", "statement": "DateTime(timestamp) accepts every timestamp; getUnixTime() is the timestamp and getY2kTime() is 946684800 less.", "quantifier": "all timestamps, debug and release builds, 32-bit and 64-bit long", "why_tests_cant": "depends on the width of long and on the date", "anchors": ["src/spine/structure/time/datetime.cpp: DateTime(time_t)"]}
{"id": "C85", "title": "Searching a text and reading a number from it", "statement": "find_first_of(s, delimiters) is the index of the first delimiter in s, or npos if there is none. to_float(s) is the number s spells, or 0 if s is not a number.", "quantifier": "all texts, delimiters and surroundings of the text in memory", "why_tests_cant": "a view into a longer text behaves differently depending on the characters after it", "anchors": ["src/spine/core/utils/string.cpp: find_first_of, to_float"]}
{"id": "C86", "title": "A time is written to the nearest unit and can be read back", "statement": "repr(t) is a number and a unit (us below 1 ms, ms below 1 s, s below 15 min, m below 24 h, d from there on) that denote t rounded to the unit; parse_time of the text gives that number and unit.", "quantifier": "all times in all units", "why_tests_cant": "over all values; rounding errors of float conversions", "anchors": ["src/spine/core/utils/time_repr.hpp: repr", "src/spine/core/utils/time_repr.cpp: parse_time"]}
{"id": "C87", "title": "Constructing and copying a Result keep value and state", "statement": "A Result constructed from a value of type T is a success with that value; failed(e) and intermediary(i) give those states; a copy of a Result is equal to the original.", "quantifier": "all types T, E and I (equal or convertible to one another or not), all values, variables and temporaries", "why_tests_cant": "depends on overload resolution for each combination of types", "anchors": ["src/spine/structure/result.hpp: Result constructors"]}
{"id": "C88", "title": "Accessing a Result gives the value of its state", "statement": "value, error_value, intermediary_value and unwrap give the value of the matching state and report any other state; value_or, error_or and unwrap_or_else give the value of the state or the default.", "quantifier": "all types, states and values, debug and release builds", "why_tests_cant": "over all type combinations and states", "anchors": ["src/spine/structure/result.hpp: value, error_value, intermediary_value, unwrap, value_or, error_or, unwrap_or_else"]}
{"id": "C89", "title": "Compound units compare by quantity", "statement": "==, !=, <, <=, > and >= of two compound units compare the quantities that they denote.", "quantifier": "all numerators, denominators and magnitudes (exact arithmetic)", "why_tests_cant": "tests compare units of the same magnitude", "anchors": ["src/spine/structure/units/primitives/compound_unit.hpp: operator==, operator<"]}
{"id": "C90", "title": "simplify keeps the quantity", "statement": "simplify() does not change the quantity and reduces it to lowest terms.", "quantifier": "all numerators, denominators and precisions", "why_tests_cant": "over all pairs, with negative and small numbers", "anchors": ["src/spine/structure/units/primitives/compound_unit.hpp: simplify"]}
{"id": "C91", "title": "Real times become whole kernel times", "statement": "to_kernel_time gives the least whole number of units not below the time; to_real_time followed by to_kernel_time gives the same time.", "quantifier": "all times", "why_tests_cant": "float cannot represent all of 64 bits; tests use small numbers", "anchors": ["src/spine/structure/units/time.hpp: to_kernel_time, to_real_time"]}
{"id": "C92", "title": "Equality of real units is consistent", "statement": "Equality of real units is reflexive and symmetric, holds only for nearly equal quantities, and agrees with the order.", "quantifier": "all values and magnitudes, IEEE 754 single precision", "why_tests_cant": "over all floats; each direction rounds another ratio", "anchors": ["src/spine/structure/units/primitives/unit.hpp: operator==, approximately_equal, from_other"]}
{"id": "C93", "title": "Celsius and Kelvin", "statement": "to_kelvin and to_celsius differ by 273.15 and undo one another up to rounding.", "quantifier": "all temperatures up to 2^100", "why_tests_cant": "the error bound is over all floats", "anchors": ["src/spine/structure/units/temperature.hpp: to_celsius, to_kelvin"]}
{"id": "C94", "title": "Digital outputs show their state", "statement": "After any calls of initialize, set_state and flip, the pin has the level of state() (inverted if active on low); flip switches between OFF and ON.", "quantifier": "all sequences of calls, both polarities", "why_tests_cant": "the level depends on the whole history of calls", "anchors": ["src/spine/platform/gpio.hpp: DigitalOutput", "src/spine/platform/implementations/arduino.hpp: ArduinoDigitalOutput"]}
{"id": "C95", "title": "Analogue outputs hold the value that was set", "statement": "value() is the value last set, which the hardware has; the number written to the pin is that fraction of the full scale of 2^resolution - 1.", "quantifier": "all values, resolutions, polarities and sequences of calls", "why_tests_cant": "over all floats and calls; tests run on a mock without hardware", "anchors": ["src/spine/platform/gpio.hpp: AnalogueOutput", "src/spine/platform/implementations/arduino.hpp: ArduinoAnalogueOutput"]}
{"id": "C96", "title": "The mock clock counts all delays", "statement": "millis() and micros() of the mock platform are the sum of all delays so far, in their units.", "quantifier": "all sequences of delays in ms and us", "why_tests_cant": "the tests use delays in ms and read the clock in ms", "anchors": ["src/spine/platform/implementations/mock.hpp: millis, micros, delay_us, delay_ms"]}
{"id": "C97", "title": "Timers survive the clock rolling around", "statement": "Timers and alarms keep working when HAL::millis() rolls around, as it is documented to do.", "quantifier": "all timers, all times", "why_tests_cant": "it takes 49 days", "anchors": ["src/spine/platform/platform.hpp: millis", "src/spine/platform/implementations/arduino.hpp: millis", "src/spine/structure/time/timers.cpp: IntervalTimer::expired, AlarmTimer::expired"]}
{"id": "C98", "title": "Delays take at least the time asked for", "statement": "delay_us and delay_ms on Zephyr pass at least the given time.", "quantifier": "all times", "why_tests_cant": "needs the hardware; depends on the size of the types", "anchors": ["src/spine/platform/implementations/zephyr.hpp: delay_us, delay_ms"]}
{"id": "C99", "title": "The log level reaches the backend", "statement": "After set_log_level(level) on Zephyr the backend's filter is at that level.", "quantifier": "all levels", "why_tests_cant": "needs Zephyr", "anchors": ["src/spine/platform/implementations/zephyr.cpp: zephyr_set_log_level"]}
{"id": "C100", "title": "Reading a byte reports whether there was one", "statement": "read(uint8_t&) of the Arduino UART returns whether a byte was received, and then that byte.", "quantifier": "all received data", "why_tests_cant": "needs the hardware", "anchors": ["src/spine/platform/implementations/arduino.hpp: ArduinoUART::read"]}
{"id": "C101", "title": "HAL::printf stays within its buffer", "statement": "HAL::printf prints the formatted text, cut to the size of its buffer, and writes nothing outside of it.", "quantifier": "all texts, buffer sizes", "why_tests_cant": "over all lengths", "anchors": ["src/spine/platform/platform.hpp: printf"]}
{"id": "C102", "title": "A StaticString never reallocates", "statement": "set_size keeps the characters, pads with NUL and never exceeds the capacity; text written to data(n) is the string's content; no sequence of calls changes the capacity.", "quantifier": "all strings, sizes, texts, sequences of calls, debug and release builds", "why_tests_cant": "over all sequences of calls", "anchors": ["src/spine/structure/static_string.cpp: set_size, data"]}
{"id": "C103", "title": "Stripping and matching a StaticString", "statement": "lstrip and rstrip remove exactly the delimiters at the beginning and the end; starts_with and ends_with test for a prefix and a suffix.", "quantifier": "all strings, delimiters and needles", "why_tests_cant": "over all strings, also of delimiters alone and shorter than the needle", "anchors": ["src/spine/structure/static_string.cpp: lstrip, rstrip, starts_with, ends_with"]}
{"id": "C104", "title": "Conversions between prefixes are accurate", "statement": "Converting a unit with float values to one with another prefix multiplies by the ratio of the prefixes, up to the accuracy of single precision; converting there and back returns the value up to that accuracy.", "quantifier": "all values whose results are normal floats, all pairs of prefixes", "why_tests_cant": "over all floats; the tests compare few values with a tolerance", "anchors": ["src/spine/structure/units/primitives/magnitudes.hpp", "src/spine/structure/units/primitives/unit.hpp: from_other"]}
{"id": "C105", "title": "Comparisons across prefixes follow the quantities", "statement": "<, >, <= and >= between units with float values and different prefixes compare the quantities.", "quantifier": "all values and pairs of prefixes", "why_tests_cant": "over all floats; equal quantities are where it goes wrong", "anchors": ["src/spine/structure/units/primitives/magnitudes.hpp", "src/spine/structure/units/primitives/unit.hpp: operator<, operator>, operator<=, operator>="]}
{"id": "C106", "title": "Nothing is executed after a thrown exception", "statement": "throw_exception does not return, so code after a failed spn_assert in a debug build, and a division after the check for zero, is not executed.", "quantifier": "all platforms, all handlers", "why_tests_cant": "the tests install a handler that throws a C++ exception", "anchors": ["src/spine/core/exception.cpp: Exception::throw_error", "src/spine/core/debugging.hpp: spn_assert", "src/spine/platform/implementations/mock.hpp: halt"]}
{"id": "C107", "title": "No exception handler is lost", "statement": "Each handler passed to set_machine_exception_handler is either the current one or was handed back by a later call, exactly once and in order.", "quantifier": "all sequences of calls", "why_tests_cant": "over all sequences", "anchors": ["src/spine/core/exception.cpp: set_machine_exception_handler"]}
{"id": "C108", "title": "attach_interrupt sets the pin's interrupt", "statement": "attach_interrupt sets the interrupt of the pin to the given callback and trigger and changes no other; without arguments it sets what was set last.", "quantifier": "all pins, callbacks, triggers, boards", "why_tests_cant": "needs the hardware", "anchors": ["src/spine/platform/implementations/arduino.hpp: ArduinoInterrupt::attach_interrupt"]}
{"id": "C109", "title": "detach_interrupt undoes attach_interrupt", "statement": "After attach_interrupt and detach_interrupt the pin's interrupt is free and all others are as before.", "quantifier": "all pins, boards", "why_tests_cant": "needs the hardware", "anchors": ["src/spine/platform/implementations/arduino.hpp: ArduinoInterrupt::detach_interrupt"]}
{"id": "C110", "title": "Event data is read as what it was written", "statement": "The accessor of Event::Data for the type it was made from returns the value; no accessor returns a value for data of another type or for no data.", "quantifier": "all values, debug and release builds", "why_tests_cant": "over all values; release builds are not tested", "anchors": ["src/spine/eventsystem/eventsystem.cpp: Event::Data"]}
{"id": "C111", "title": "An average of a constant becomes the constant", "statement": "If the same sample is given again and again, the value of an EWMA approaches the sample: geometrically in exact arithmetic, and until they are equal up to a bound in single precision.", "quantifier": "all earlier samples, all samples, frame lengths, any number of samples", "why_tests_cant": "a limit: no finite number of samples shows it", "anchors": ["src/spine/filter/implementations/ewma.hpp: value"]}
{"id": "C112", "title": "A lasting error drives the output to its limit", "statement": "As long as the reading stays on one side of the setpoint, each computation of the controller moves the output by at least its integral part, so that the output reaches the limit on that side after a number of computations that can be told in advance.", "quantifier": "all controllers, states, constant readings on one side of the setpoint, any number of computations", "why_tests_cant": "a statement about any number of computations; the tests use a handful", "anchors": ["src/spine/controller/implementations/pid/pid_controller.cpp: PIDController::update", "src/spine/controller/pid.cpp: PID::new_reading"]}
{"id": "C113", "title": "The controller does not wind up", "statement": "However long the output has been at its limit, the first computation whose error has the other sign takes the output away from the limit by at least its integral part.", "quantifier": "all controllers, states, readings", "why_tests_cant": "over all earlier histories", "anchors": ["src/spine/controller/implementations/pid/pid_controller.cpp: PIDController::update"]}
{"id": "C114", "title": "Buffered streams work on every port that loses nothing, such as a serial port", "statement": "On any stream that keeps its promises, a MockUART and an ArduinoUART among them, and over any history: what the application wrote is, in order, what the remote side received, what is in the port and what is in the output buffer; the lines used or answered, the input buffer and the bytes in the port are a subsequence of what the remote side sent, and just the overwritten bytes are missing. If the application looks for a line between any two pulls, each line sent is used or answered exactly once, in order, up to beginnings that did not fit.", "quantifier": "all streams, buffer sizes, delimiters, debug and release builds, all histories of arriving and leaving bytes, pulls, pushes, polls, writes and transactions", "why_tests_cant": "over all streams and histories; the tests only use the mock stream", "anchors": ["src/spine/platform/implementations/arduino.hpp: ArduinoUART", "src/spine/platform/implementations/mock.hpp: MockUART", "src/spine/io/stream/buffered_stream.cpp", "src/spine/io/stream/transaction.cpp"]}
{"id": "C115", "title": "Replies are sent whole or not at all", "statement": "If an application writes only through transactions and asks for the space left before, what the remote side has received, what is in the port and what is in the output buffer are together a sequence of whole replies in the order they were given, at most one for each line.", "quantifier": "all streams, buffer sizes, replies, histories, debug and release builds", "why_tests_cant": "over all histories and fill levels", "anchors": ["src/spine/io/stream/transaction.cpp: outgoing, outgoing_space_left, commit"]}
{"id": "C116", "title": "normalize gives length one and keeps the direction", "statement": "After normalize a point has the length 1 and the direction it had.", "quantifier": "all points other than the origin", "why_tests_cant": "over all points; points have no tests", "anchors": ["src/spine/structure/point.hpp: normalize, mag"]}
{"id": "C117", "title": "dot is the inner product", "statement": "dot of two points is the sum of the products of their coordinates, and zero for perpendicular points.", "quantifier": "all points", "why_tests_cant": "over all points; points have no tests", "anchors": ["src/spine/structure/point.hpp: dot"]}
{"id": "C118", "title": "A vector is the list it was constructed from or assigned", "statement": "After constructing a vector from a list or assigning a list to it, the vector has the length and the elements of the list, whatever it was before.", "quantifier": "all lists, earlier states of all vectors of a program, debug and release builds", "why_tests_cant": "over all earlier histories of the storage", "anchors": ["src/spine/structure/vector.hpp: operator=", "src/spine/structure/array.hpp: operator="]}
{"id": "C119", "title": "Copying, moving and swapping vectors", "statement": "A copy of a vector has its elements and is independent of it; a vector that was moved from is empty; swap exchanges two vectors.", "quantifier": "all vectors, all pairs of vectors", "why_tests_cant": "over all vectors; the tests copy no vectors", "anchors": ["src/spine/structure/vector.hpp: Vector", "src/spine/structure/array.hpp: Array(const Array&), Array(Array&&), swap"]}
{"id": "C120", "title": "Debug builds stop on misuse of a vector", "statement": "In a debug build every call on a vector that breaks its precondition (an insertion into a full vector, a removal from or a look at an end of an empty vector, an index that is out of range) stops with a failed assertion before memory is touched.", "quantifier": "all reachable vectors, element types, capacities and calls", "why_tests_cant": "over all states and calls; a test of an assertion needs one state each, and undefined behaviour need not show", "anchors": ["src/spine/structure/vector.hpp: push_back, push_front, emplace_front, insert, pop_back, pop_front, remove, operator[], back"]}
{"id": "C121", "title": "A release build ignores insertions into a full vector", "statement": "In a release build an insertion into a full vector and a removal from an empty one change nothing.", "quantifier": "all reachable full and empty vectors, element types and capacities", "why_tests_cant": "over all states; release builds compile the assertions out, so tests with assertions do not apply", "anchors": ["src/spine/structure/vector.hpp: push_back, push_front, emplace_front, insert, pop_front"]}
{"id": "C122", "title": "Destroying an event system releases its events", "statement": "Destroying an event system, in any state, fails no assertion and releases every event object: afterwards the only references left are the handles the program holds itself.", "quantifier": "all configurations, all histories of scheduling, triggering, attaching and looping, all numbers of pending events", "why_tests_cant": "over all histories and capacities; reference counts are not observed by the tests, and a leak does not fail a test", "anchors": ["src/spine/eventsystem/eventsystem.cpp: EventSystem::~EventSystem", "src/spine/structure/pool.hpp: ~Pool", "src/spine/structure/array.hpp: ~Array"]}
{"id": "C123", "title": "A pipeline can be shown as text", "statement": "pipeline_as_string() returns a text that lists, separated by commas, the remaining time of every pending event in the order in which they are due, without failing an assertion.", "quantifier": "all reachable pipelines, all clock readings during the call, all standard libraries (capacities chosen by std::string)", "why_tests_cant": "over all states and clock readings; a tick between the two passes cannot be forced in a test, and other libraries choose other capacities", "anchors": ["src/spine/eventsystem/pipeline.cpp: Pipeline::to_string", "src/spine/eventsystem/eventsystem.hpp: EventSystem::pipeline_as_string", "src/spine/core/utils/time_repr.hpp: repr"]}
{"id": "C124", "title": "Kernel times in different units add and compare by quantity", "statement": "Adding, subtracting and comparing two kernel times held in different units treats them as the quantities they denote: a sum or difference is the exact one rounded to the unit of the left operand, and ==, !=, <, <=, > and >= answer as the exact quantities do, whichever operand stands on the left.", "quantifier": "for all pairs of units and all 64-bit values of both operands", "why_tests_cant": "36 pairs of units times 2^128 pairs of values; which side of a rounding boundary an operand falls on decides the answer, and tests use round numbers", "anchors": ["src/spine/structure/units/primitives/unit.hpp: Unit::operator+, operator-, operator==, operator<", "src/spine/structure/units/time.hpp: k_time_ms, k_time_s"]}
{"id": "C125", "title": "Dividing a time by a time counts how often it fits", "statement": "Dividing a kernel time by a kernel time in any unit gives the number of whole times the divisor fits into the dividend, and reports a division by zero exactly if the divisor is zero.", "quantifier": "for all pairs of units, dividends and divisors", "why_tests_cant": "the divisor is rounded to the unit of the dividend first, so non-zero divisors can become zero; only a quantified statement separates the divisors for which that happens", "anchors": ["src/spine/structure/units/primitives/unit.hpp: Unit::operator/"]}
{"id": "C126", "title": "Scaling a time in place by a fraction gives the nearest time", "statement": "Multiplying (*=) or dividing (/=) a kernel time by a float or double gives the product or quotient rounded to the nearest unit; scaling by one changes nothing, division by zero is reported, and scaling two times by the same non-negative number keeps their order.", "quantifier": "for all 64-bit times and all floating point scalars including infinities and NaN", "why_tests_cant": "2^64 times and 2^32 or 2^64 scalars; errors appear only beyond the precision of the scalar's type or at values the tests do not pick", "anchors": ["src/spine/structure/units/primitives/unit.hpp: Unit::operator*=, operator/="]}
{"id": "C127", "title": "Scaling a time in place by an unsigned count", "statement": "Multiplying (*=) or dividing (/=) a kernel time by an unsigned 64-bit count such as a container's size() gives the product or the quotient truncated towards zero, also for negative times.", "quantifier": "for all times and counts", "why_tests_cant": "the usual arithmetic conversions turn the time into an unsigned number; which operands that harms is a statement about all of them", "anchors": ["src/spine/structure/units/primitives/unit.hpp: Unit::operator*=, operator/="]}
{"id": "C128", "title": "Copies of a pool", "statement": "A copy of a pool and the original hand out objects without conflict, and each remains usable when the other is destroyed.", "quantifier": "all pools, all copies, all histories of acquire, share, release and destruction", "why_tests_cant": "the tests never copy a pool; the copies share slots and reference counts, so that the outcome depends on the history of both", "anchors": ["src/spine/structure/pool.hpp:23-35", "src/spine/structure/pool.hpp:18-22", "src/spine/structure/array.hpp:156-160"]}
{"id": "C129", "title": "Measuring time with micros()", "statement": "The difference of two readings of micros() is the time in us that passed in between; micros() and millis() tell the same time.", "quantifier": "all pairs of times, all tick rates", "why_tests_cant": "the 32-bit clock rolls around after 71 min, and differences are rounded to 24 bits after 17 s; tests run for less, on a mock clock", "anchors": ["src/spine/platform/platform.hpp:92-93", "src/spine/platform/implementations/arduino.hpp:334", "src/spine/platform/implementations/zephyr.hpp:38-39", "src/spine/core/utils/time_repr.hpp"]}
{"id": "C130", "title": "Periodic tasks", "statement": "Handlers that schedule their own event again, one period ahead, are called periodically: the first call when the event was scheduled for, the k-th one k periods later, late by no more than the time the program spends between two calls of loop(), and no call is omitted.", "quantifier": "all numbers of tasks, periods, first delays, and times spent between calls of loop(), with and without sleeping", "why_tests_cant": "infinitely many interleavings of tasks, program and sleep; drift shows only in the long run", "anchors": ["src/spine/eventsystem/eventsystem.cpp:63-88", "src/spine/eventsystem/eventsystem.hpp:111-155", "src/spine/eventsystem/pipeline.cpp"]}
{"id": "C131", "title": "Arithmetic and equality of real units across prefixes", "statement": "Adding, subtracting and dividing two real-valued units with different prefixes (metres and kilometres, say) computes with the quantities, not with the raw numbers: the result, in the unit of the left operand, differs from the exact one by at most seven parts in 2^24, provided that the right operand converted to the left unit is neither too small nor too large for a normal float. Dividing by zero is reported. Two units that compare equal are within eight parts in 2^24 of each other, and != is the opposite of ==; equal quantities compare equal.", "quantifier": "for all pairs of SI prefixes, all finite floats in the stated range", "why_tests_cant": "The claim is about all pairs of 2^32 floats and all pairs of prefixes; a rounding error beyond the tolerance of == shows up for a few values only (30 mm and 3 cm).", "anchors": ["src/spine/structure/units/primitives/unit.hpp:50-79", "src/spine/structure/units/primitives/unit.hpp:102-143", "src/spine/structure/units/primitives/magnitudes.hpp"]}
{"id": "C132", "title": "Timestamps and calendar dates of a DateTime agree", "statement": "The getters of DateTime(t) tell the Gregorian date, time of day, day of the week and day of the year t seconds after the beginning of 1970; a DateTime made from a date and a time of day has the number of seconds from 1970 to then as its Unix time, 946684800 less as its Y2K time, and its getters tell what it was made from; so a DateTime made from what the getters of another one tell has the same Unix time.", "quantifier": "all timestamps from 1970 on, all dates from 1970 on, all times of day, any weekday and day of the year passed to the constructor, all C libraries that conform and run in UTC", "why_tests_cant": "Tests compare a few dates; the claim is about every second from 1970 on, leap years and centuries included, and about libraries with another epoch (AVR).", "anchors": ["src/spine/structure/time/datetime.cpp:87-156", "src/spine/structure/time/datetime.hpp:22-54"]}
{"id": "C133", "title": "A vector can insert one of its own elements", "statement": "v.push_back(v[k]), v.push_front(v[k]) and v.insert(i, v[k]) on a vector with room insert the value that v[k] had before the call, as std::vector does, and leave the other elements as they were.", "quantifier": "all element types, capacities, reachable vectors that are not full, indices k and i", "why_tests_cant": "Whether the reference still names the same element depends on where the window lies and on whether the call moves memory, which depends on the whole history of the vector.", "anchors": ["src/spine/structure/vector.hpp:76-93", "src/spine/structure/vector.hpp:133-139", "src/spine/structure/vector.hpp:171-187", "src/spine/structure/vector.hpp:221-242"]}
{"id": "C134", "title": "An open transaction keeps showing its line", "statement": "From opening a Transaction until it is finalized, `incoming()` shows the same line, and `commit()` consumes exactly that line, whatever data is received, queued and sent meanwhile through the same BufferedStream.", "quantifier": "every stream implementation, buffer sizes, state of the buffered stream reachable by any history, and every sequence of pull_in_data, push_out_data, buffered_write and output_buffer_drop calls and changes of the underlying stream between opening and committing", "why_tests_cant": "The line is a view into the storage of the ring buffer, so it depends on every later write to the buffer; tests answer a transaction right after opening it on a buffer that never overran.", "anchors": ["src/spine/io/stream/transaction.cpp:6-17", "src/spine/io/stream/buffered_stream.cpp:26-46", "src/spine/structure/linebuffer.cpp:12-19"]}
{"id": "C135", "title": "The filters are accurate to single precision", "statement": "Computed with `float`, MappedRange differs from the exact linear mapping by at most (6 * width + largest limit of the output range) * 2^-24 + 2^-149, Invert from `hi - (x - lo)` by at most (2 * width + largest limit) * 2^-24, and an EWMA that has taken no more samples than its frame holds from their mean by at most (number of samples - 1) * (largest sample * 2^-22 + 2^-149).", "quantifier": "all finite single-precision limits of magnitude up to 2^125 and all finite samples (Invert: of its range); for the EWMA all frames longer than one sample and all nonempty lists of at most 2^24 finite samples of magnitude below 2^127 that fit into the frame", "why_tests_cant": "A bound on accumulated rounding errors is a statement about all inputs; tests compare a few values with a tolerance that was chosen to make them pass.", "anchors": ["src/spine/filter/implementations/mapped_range.hpp:46-60", "src/spine/filter/implementations/invert.hpp:34-37", "src/spine/filter/implementations/ewma.hpp:28-45"]}
{"id": "C136", "title": "A ring buffer shared with an interrupt handler", "statement": "When an interrupt handler fills a RingBuffer that the main program empties, or empties one that the main program fills, and interrupts `pop` or `push` between any two of its statements, no element is lost, repeated or reordered; `pop` reports false only for an empty buffer.", "quantifier": "every capacity, state reachable by any history, and any number of pushes (respectively pops) by the handler between any two statements of the interrupted call, accesses to data members being indivisible and in program order", "why_tests_cant": "The interleavings and fill levels are unbounded and unit tests run on one thread.", "anchors": ["src/spine/structure/ringbuffer.hpp:46", "src/spine/structure/ringbuffer.hpp:79-91", "src/spine/structure/ringbuffer.hpp:109-118"]}
{"id": "C137", "title": "A loop over the lines processes every line", "statement": "Reading lines with get_next_line until it returns 0, or as long as has_line() is true, processes every complete line in the buffer in order and leaves only the unfinished rest.", "quantifier": "every capacity, state reachable by any history, delimiters, contents and size of the caller's array", "why_tests_cant": "The number, lengths and terminators of the waiting lines are unbounded; tests read a few lines of known length and terminator.", "anchors": ["src/spine/structure/linebuffer.cpp:21-31", "src/spine/structure/linebuffer.hpp:25-30", "src/spine/io/stream/buffered_stream.cpp:17-19"]}
{"id": "C138", "title": "The PID in single precision stays close to the exact one", "statement": "After any series of readings, the output of the controller, which computes with float, differs from what a controller in exact arithmetic gives by no more than the number of computations times a few units in the last place of the limits and of gain times reading; both use the same readings.", "quantifier": "all gains, limits, setpoints and readings up to 2^120 (products too), all series of readings of any length", "why_tests_cant": "the errors of the roundings add up over an unbounded number of computations", "anchors": ["src/spine/controller/implementations/pid/pid_controller.cpp: update"]}
{"id": "C139", "title": "Every text a DateTime is made of has one meaning or is undefined", "statement": "DateTime(date, time) sets year, month, day, hour, minute, second and day of the year exactly if `date` is a word (of which the first four characters count), a day of at most two and a year of at most four characters, the word occurs in the names of the months written one after another, and `time` is three integer constants of C (decimal, octal or hexadecimal, with white space and sign in front) with colons after the first two, each in the range of int; the fields are then the numbers written. For every other text the behaviour is undefined.", "quantifier": "all texts of any length", "why_tests_cant": "the texts are unbounded, and the statement includes which texts are wrong", "anchors": ["src/spine/structure/time/datetime.cpp:126-140"]}
{"id": "C140", "title": "Inherited members show the elements of a vector", "statement": "`at(i)` and `data()[i]` are element i of a Vector, a loop from cbegin() to cend() sees exactly its elements in order, and one from crbegin() to crend() sees them in reverse order.", "quantifier": "all element types, capacities and histories of calls within their preconditions", "why_tests_cant": "the defect depends on the history (where the window starts and how full the vector is)", "anchors": ["src/spine/structure/vector.hpp:19", "src/spine/structure/array.hpp:199-202", "src/spine/structure/array.hpp:224-232", "src/spine/structure/array.hpp:258-266", "src/spine/structure/array.hpp:292-300"]}
{"id": "C141", "title": "A transaction that has ended has no further effect", "statement": "After commit(), abort() or a move, using the Transaction object again fails an assertion in a debug build; in a release build incoming() is empty, and outgoing(), commit() and abort() change nothing.", "quantifier": "all states of the buffered stream, both ways to end a transaction, both builds", "why_tests_cant": "the state of the stream when the object is used again is arbitrary; release builds show no error", "anchors": ["src/spine/io/stream/transaction.cpp:14-60", "src/spine/io/stream/transaction.hpp:14-34"]}
{"id": "C142", "title": "A closed loop settles at the setpoint", "statement": "If the PID controls a process of first order (each step adds a gain times the output to the reading, and takes away a part of the distance to the surroundings), its gains are within the limits of stability and the output that holds the setpoint is within the output limits, then a reading that starts close enough to the setpoint approaches it: the square of its error stays below a bound that shrinks by a constant factor with every two computations.", "quantifier": "all processes with gain > 0 and loss between 0 and 1, all gains Kp and Ki for which the loop is stable, all setpoints, limits and states within the margin, any number of computations; exact arithmetic, Kd = 0", "why_tests_cant": "a limit over unbounded runs, and over a region of gains", "anchors": ["src/spine/controller/implementations/pid/pid_controller.cpp: update", "src/spine/controller/pid.cpp: new_reading"]}
{"id": "C143", "title": "The setpoint acts on the output", "statement": "Changing the setpoint of a PID changes its output.", "quantifier": "all controllers, gains and histories of readings and setpoints", "why_tests_cant": "with the default gains there is an integral part, which hides that the proportional part never sees the setpoint", "anchors": ["src/spine/controller/pid.cpp: PID::PID", "src/spine/controller/implementations/pid/pid_controller.cpp: update"]}
{"id": "C144", "title": "Points are vectors of the Euclidean space", "statement": "Adding, subtracting and scaling points, comparing them and taking their length (mag) are the operations of the Euclidean space; so subtracting undoes adding, and distances obey the inequality of the triangle. Dividing integer points and taking the remainder fit together: q * (p / q) + p % q == p.", "quantifier": "all points in space and in the plane, all scalars; real coordinates and int coordinates", "why_tests_cant": "over all points; points have no tests", "anchors": ["src/spine/structure/point.hpp"]}
{"id": "C145", "title": "A total of times is the sum of its parts", "statement": "A variable to which times are added with += holds the sum of what it held before and of the times added, and -= takes back what += added.", "quantifier": "all units on both sides, all series of times of any length", "why_tests_cant": "the error per time added is below half a unit; it adds up over an unbounded number of additions", "anchors": ["src/spine/structure/units/primitives/unit.hpp: operator+=, operator-="]}
{"id": "C146", "title": "A detached handler is called no more", "statement": "After detach(handler) no event calls the handler, so that it can be destroyed.", "quantifier": "all histories, handlers and events; debug and release builds", "why_tests_cant": "the tests never detach; release builds show no error", "anchors": ["src/spine/eventsystem/eventsystem.hpp: detach"]}
{"id": "C147", "title": "The loop of PID, sensor and process settles at the setpoint", "statement": "A PID that works with float readings of a real sensor on a process of first order with small disturbances brings the measured quantity to the setpoint and keeps it there.", "quantifier": "all gains with which the exact loop does not swing up; all sensors that are off by at most a given amount, all series of disturbances of at most a given size, runs of any length", "why_tests_cant": "rounding errors, noise and disturbances are fed back into the loop for as long as it runs; a test covers one sensor, one process and a short run", "anchors": ["src/spine/controller/pid.hpp", "src/spine/controller/pid.cpp", "src/spine/controller/implementations/pid/pid_controller.cpp"]}
{"id": "C148", "title": "A latch as a controller keeps the quantity in a band", "statement": "Let an SRLatch without maximal times switch something that makes a quantity fall by at most `down` per millisecond while the response is on, and let the quantity rise by at most `up` per millisecond while it is off. Then, from any start within the band, every reading is at most max(high, low + up * minimal_off_time) + up * gap and at least min(low, high - down * minimal_on_time) - down * gap, where gap is the longest time between two readings (plus the rounding of times above 2^24 ms). With a maximal on time there is no such bound.", "quantifier": "all thresholds, minimal times, rates, processes within the rates and histories of readings with gaps of at most `gap`", "why_tests_cant": "A test runs one process; that no process within the rates, sampled at any times, leaves the band is a statement about all feedback histories.", "anchors": ["src/spine/controller/sr_latch.hpp", "src/spine/controller/sr_latch.cpp"]}
{"id": "C149", "title": "A periodic event drives a controller at every call", "statement": "A PID that is given a reading at every call of a periodic event of the event system computes at every call if its sampling time is at most the period of the event, whatever the readings are and however late the calls. The same should hold of an IntervalTimer of the period of the event; but as expired() waits for more than its interval, it returns false at every other call if the calls are punctual.", "quantifier": "all systems, tasks, periods, delays, gains and readings, for uptimes up to 2^24 ms; for the timer all periods and numbers of calls", "why_tests_cant": "It depends on the exact times at which the event loop calls handlers, over any number of rounds, in combination with the comparison in the controller.", "anchors": ["src/spine/controller/pid.cpp", "src/spine/controller/implementations/pid/pid_controller.cpp", "src/spine/structure/time/timers.cpp", "src/spine/eventsystem/eventsystem.cpp"]}
{"id": "C150", "title": "A DateTime writes itself as text that identifies it and can be read back", "statement": "strf_DateTime with the default format writes the date and the time of a DateTime made from a timestamp into a buffer that has room for the text and a NUL character (25 characters up to the year 9999), and returns the length; with less room it returns 0. Different timestamps have different texts. What is written in the formats \"%h %d %Y\" and \"%T\" can be read by the constructor that takes a date and a time as text, and gives the same fields.", "quantifier": "all timestamps from 1970 on, buffers and sizes, for every C library that meets Clib.Utc", "why_tests_cant": "Tests format single dates; that no two moments share a text and that every text can be read is about all of them.", "anchors": ["src/spine/structure/time/datetime.hpp", "src/spine/structure/time/datetime.cpp"]}
{"id": "C151", "title": "Copies of a ring buffer", "statement": "A ring buffer can be copied, moved and assigned like a value. A copy has the elements of the original, and from then on the two are queues of their own: what is pushed into, popped from or dropped from the one does not change the other, and either can be destroyed first.", "quantifier": "all ring buffers after any history of calls, all programs of calls, copies, moves and destructions", "why_tests_cant": "Tests push into one ring buffer and do not copy it; the sharing of the slots shows only after particular sequences of calls on both, and as reads of freed memory.", "anchors": ["src/spine/structure/ringbuffer.hpp", "src/spine/structure/array.hpp"]}
{"id": "C152", "title": "Copies of a PID", "statement": "A PID that was copied, moved or assigned from another one is a controller of its own from then on: its response is computed from its own readings, setpoint and gains, calls on it have no effect on the response of the PID it came from, and it stays usable after that one is destroyed.", "quantifier": "All programs that create PIDs, copy, move, assign and destroy them and call their functions, in any order, in both builds.", "why_tests_cant": "A test has one controller and never looks at two objects that hold pointers into each other; after the original is gone, memory usually still holds plausible values.", "anchors": ["src/spine/controller/pid.hpp", "src/spine/controller/pid.cpp", "src/spine/controller/implementations/pid/pid_controller.hpp", "src/spine/controller/implementations/pid/pid_controller.cpp"]}
{"id": "C153", "title": "Preheating before tuning stops at the startpoint or after half an hour", "statement": "With a startpoint, PID::autotune first requests the upper limit, once a second, until a reading is not below the startpoint, but for no longer than half an hour; then it requests the lower limit. Without a startpoint it does nothing before tuning.", "quantifier": "all processes (any reaction to the requests), all limits and startpoints, all clocks that do not run backwards", "why_tests_cant": "whether the loop ends depends on the process and on the clock; half an hour of heating that never reaches its goal is not tested", "anchors": ["src/spine/controller/pid.cpp: PID::autotune, block_until_setpoint"]}
{"id": "C154", "title": "Autotuning reads the process at the sample interval and drives only the limits", "statement": "Tuning consists of turns: a reading, one request, which is one of the two limits, and waiting until at least the sample interval has passed since the beginning of the turn. The tuner is given exactly these readings, with the times of the turns; tuning ends when the process has oscillated the configured number of times, with a request for 0.", "quantifier": "all processes, limits, sample intervals and tuning configurations, all lengths of a run", "why_tests_cant": "the readings are the reactions of the process to the requests, in runs of any length; the interval is compared in float, which is exact for the first 4.7 hours only", "anchors": ["src/spine/controller/pid.cpp: PID::autotune"]}
{"id": "C155", "title": "A Result as a variable keeps its state", "statement": "Unwrapping a Result, its error or its intermediary value gives the value and leaves the Result as it was, so it can be unwrapped again. A step of chain on a variable that is ongoing gets the value in the variable: the next step sees what the last one wrote to it, and the variable stays ongoing whatever the step returns; on a success or a failure no step runs and nothing changes. A Result that was moved from reports the state it had.", "quantifier": "all types, values, steps and sequences of these calls on one variable", "why_tests_cant": "programs and types are arbitrary, and the steps can be any functions with effects", "anchors": ["src/spine/structure/result.hpp: unwrap, unwrap_error_value, unwrap_intermediary_value, chain, intermediary_value_mut, Result(Result&&)", "src/spine/core/meta/unique_type_variant.hpp: Wrapper"]}
{"id": "C156", "title": "A latch behind an average does not react to noise and short spikes", "statement": "If the readings of a latch are the values of an EWMA, samples that do not exceed the threshold never switch it on; and once the frame is full, neither do spikes, as long as the part of the way to their height that so many samples can make up does not reach the threshold. In the same way a latch that is on stays on through drop-outs.", "quantifier": "all frame lengths from one on, thresholds, samples, numbers and heights of spikes, runs of any length", "why_tests_cant": "what matters is how many samples of a spike were seen before, among any number of others", "anchors": ["src/spine/filter/implementations/ewma.hpp: value", "src/spine/controller/sr_latch.cpp: new_reading"]}
{"id": "C157", "title": "A program that sleeps from block to block shows the planned values", "statement": "A program that sets its output to value_at(now) and then sleeps until start_of_next_block(now) shows the value of the plan at every moment of the day.", "quantifier": "all schedules the constructor accepts whose blocks start on the day, all starting times of the program, all moments of the day", "why_tests_cant": "a missed change of value depends on the order, the gaps and the overlaps of the blocks and on the second one looks at", "anchors": ["src/spine/structure/time/schedule.cpp: value_at, start_of_next_block"]}
{"id": "C158", "title": "reset_to makes a filter forget", "statement": "After reset_to(v), value() of a filter or of a stack of filters is v, and what further readings give does not depend on the readings taken before the reset.", "quantifier": "all filters and stacks of filters, all histories of readings with and without exceptions, all values reset to, all further readings", "why_tests_cant": "that nothing of the past is left shows only in comparing all histories", "anchors": ["src/spine/filter/filterstack.hpp: reset_to", "src/spine/filter/implementations/ewma.hpp: reset_to", "src/spine/filter/implementations/bandpass.hpp: reset_to", "src/spine/filter/implementations/mapped_range.hpp: reset_to"]}
{"id": "C159", "title": "A command server answers every request once, in order", "statement": "A server that takes requests (lines) from a buffered stream, with a transaction or with get_next_line, whenever the output buffer has room for the largest reply, and writes the reply: what the remote side receives is the replies to the requests it sent, in their order and whole, no request is lost or answered twice, and once the remote side only listens, every request is answered after finitely many rounds of the loop.", "quantifier": "all ports that keep their promises, buffer sizes, delimiters, reply functions, requests, ways in which bytes arrive and leave in pieces, orders of receiving, serving and sending, debug and release builds", "why_tests_cant": "it is a statement about two sides, three queues and any interleaving; the place of a request in the storage of the input buffer depends on all requests before", "anchors": ["src/spine/io/stream/buffered_stream.cpp: pull_in_data, push_out_data, new_transaction", "src/spine/io/stream/transaction.cpp: incoming, outgoing, commit", "src/spine/structure/linebuffer.cpp: get_next_line, get_next_line_view, drop_next_line"]}
{"id": "C160", "title": "Rescheduling a future that is already in the pipeline has no effect", "statement": "As documented at Future::reschedule, rescheduling a future that is in the pipeline changes nothing: the same futures come out of the pipeline at the same polls as without the call. In fact the future keeps its place but not its deadline: after polling at some times, what has come out is the longest stretch from the front of futures that are all due, so a future rescheduled to later holds up everything queued behind it, one rescheduled to earlier comes out as soon as the futures before it are out, and only the futures queued before it are unaffected. Pushing a pending future a second time gives it a second place, and it comes out twice.", "quantifier": "all histories of push (of pending and other futures), reschedule, waiting and serving; all capacities, all delays up to 2^23 ms, all sequences of polls, clocks that tick while a future is pushed", "why_tests_cant": "needs the joint effect of queue order and changed timers over all later polls; tests only push fresh futures", "anchors": ["src/spine/eventsystem/pipeline.hpp: Future::reschedule, Pipeline::contains_expired_futures", "src/spine/eventsystem/pipeline.cpp: Future::reschedule, Pipeline::push, expire"]}
{"id": "C161", "title": "Two devices exchange requests and replies without loss", "statement": "A client sends a request, waits for the reply and sends the next request; the server answers each request with a line. Both use a buffered stream, and the ports are connected. At any time the client has the replies to the first requests, in order, and nothing else; the server has answered these requests and at most the next one, each once. After finitely many rounds of both loops the client has the replies to all its requests.", "quantifier": "all ports that keep their promises, sizes that fit the longest request and reply, delimiters, reply functions, sequences of requests, interleavings of both applications and of both wires carrying any number of bytes, debug and release builds; requests read in place only if their length divides the input buffer evenly", "why_tests_cant": "it is a statement about two applications, six queues and any interleaving of eight kinds of steps, over arbitrarily long dialogues", "anchors": ["src/spine/io/stream/buffered_stream.cpp: pull_in_data, push_out_data, buffered_write, get_next_line, new_transaction", "src/spine/io/stream/transaction.cpp: incoming, outgoing, commit", "src/spine/structure/linebuffer.cpp: has_line, get_next_line, drop_next_line"]}
{"id": "C162", "title": "A ring buffer can push its own elements", "statement": "Elements that lie next to each other in a ring buffer can be pushed into the same ring buffer by their address: the effect is that of pushing a copy of them, with and without rollover. In particular the next line of a line buffer can be moved to its end without a copy, by taking its view, dropping it and pushing the view.", "quantifier": "all reachable buffers of any capacity, contents and position in the storage, all runs of elements, with and without rollover, all delimiters", "why_tests_cant": "elements are read while others are written to the same storage; whether one is overwritten before it is read depends on the position in the storage, the fill level and the lengths", "anchors": ["src/spine/structure/ringbuffer.hpp: push, peek_at", "src/spine/structure/linebuffer.cpp: push, get_next_line_view, drop_next_line"]}
{"id": "C163", "title": "Kernel time does not depend on the width of time_t", "statement": "Kernel times, their conversions and the timers behave the same whether the C library of the target gives time_t 64 bits or 32 bits, as on some ESP32 and SAM3X toolchains: an operation gives the same result, an alarm and an interval timer give the same answers at every uptime.", "quantifier": "every unit and value; alarms for every start and delay, and any sequence of queries; interval timers of any interval; every uptime of the 32-bit millisecond clock", "why_tests_cant": "unit tests run on a host, whose time_t has 64 bits, and a target would have to run for 24 days to show the difference", "anchors": ["src/spine/structure/units/primitives/raw_types.hpp: KernelTimeRawType", "src/spine/structure/units/primitives/unit.hpp: from_other", "src/spine/structure/time/timers.cpp", "src/spine/platform/implementations/arduino.hpp: millis", "src/spine/core/utils/time_repr.hpp: repr"]}
{"id": "C164", "title": "simplify works in float and with any unsigned long", "statement": "simplify() keeps a quantity up to rounding when it computes in float, and does not depend on the width of unsigned long, which is 64 bits on a Linux host and 32 bits on the microcontrollers; integer quantities are reduced to lowest terms there too.", "quantifier": "all finite numerators, denominators and scaling factors in float, all 64-bit integers, both widths", "why_tests_cant": "unit tests run on a host with a 64-bit unsigned long, with a few numbers; rounding depends on all bits of the operands", "anchors": ["src/spine/structure/units/primitives/compound_unit.hpp: simplify, compute_gcd, scale_to_integer", "src/spine/structure/units/primitives/unit.hpp: operator/="]}
{"id": "C165", "title": "A program that sleeps until its timer is due goes on then", "statement": "HAL::delay(alarm.time_from_now()) ends when the alarm expires, and a program that calls HAL::delay(timer.time_until_next()) and then its task if timer.expired() runs the task once per interval.", "quantifier": "all platforms, times, intervals, and times spent by the program", "why_tests_cant": "it takes a certain ms for things to go wrong, and 49 days to see it; the mock platform behaves differently from the others", "anchors": ["src/spine/structure/time/timers.cpp: AlarmTimer::time_from_now, IntervalTimer::time_until_next, IntervalTimer::expired", "src/spine/platform/platform.hpp: delay", "src/spine/platform/implementations/arduino.hpp: delay_ms", "src/spine/platform/implementations/mock.hpp: delay_ms", "src/spine/platform/implementations/zephyr.hpp: delay_ms"]}
{"id": "C166", "title": "A port that refuses bytes only delays them", "statement": "On any stream at all - one that refuses a byte although it reported room, or has none although it reported some, at any time - a BufferedStream loses nothing: what the application wrote is, in order, what the port accepted and what is in the output buffer; what the port delivered is, in order, the lines used or answered and the input buffer, up to the bytes overwritten there.", "quantifier": "all implementations of the Stream interface, including those that leave functions to the base class, all their decisions, all histories of pulls, pushes, polls, writes and transactions, debug and release builds", "why_tests_cant": "a test uses a mock that keeps its promises; the decisions of a port at every call of every history cannot be enumerated", "anchors": ["src/spine/io/stream/buffered_stream.cpp:26-57", "src/spine/io/stream/stream.hpp:17-48"]}
{"id": "C167", "title": "The band of a BandPass has the documented width", "statement": "A BandPass accepts a sample that is not further than mantissa*10^(decades+1) from the offset (absolute mode) or from the offset plus its value (relative mode), and keeps its value if it is further, until the rejection limit is reached; distances are logarithmic.", "quantifier": "all configurations (mode, mantissa, decades, offset, limit), all histories of samples and resets, all samples; real numbers with an exact power", "why_tests_cant": "the agreement of two formulas over a continuum of configurations and samples; tests use the default mantissa, for which they agree", "anchors": ["src/spine/filter/implementations/bandpass.hpp:20-55", "src/spine/filter/implementations/bandpass.hpp:94-98"]}
{"id": "C168", "title": "A line length found earlier can be passed on", "statement": "The length returned by length_of_next_line() can be passed to get_next_line, drop_next_line and get_next_line_view later: they act as without it and give the line that was found, whatever was pushed in between; a length of 0 is as good as none.", "quantifier": "every capacity, state reachable by any history, delimiters, number and kind of calls in between, length passed, contents and size of the caller's array", "why_tests_cant": "the state of the buffer and the calls between finding and taking the line are unbounded; lengths that do not fit the contents are never tried", "anchors": ["src/spine/structure/linebuffer.cpp:12", "src/spine/structure/linebuffer.cpp:21", "src/spine/structure/linebuffer.cpp:33", "src/spine/structure/linebuffer.hpp:28"]}
{"id": "C169", "title": "An analogue input reads a fraction that an output accepts", "statement": "read() is the fraction of the converter's range, between 0 and 1; passing it to set_value of an analogue output writes the same fraction of the output's range, a number of as many bits as its resolution; Percentage and Permillage turn it into the percentage and permillage.", "quantifier": "every number the converter can give, every resolution of converter and output, outputs active on low or high, both builds", "why_tests_cant": "boards with other converters are not on the test bench, and the tests use the mock, which always reads 0", "anchors": ["src/spine/platform/implementations/arduino.hpp:103", "src/spine/platform/implementations/arduino.hpp:149", "src/spine/filter/implementations/mapped_range.hpp:30", "src/spine/filter/implementations/mapped_range.hpp:38"]}
{"id": "C170", "title": "A reading that a filter refuses leaves no trace", "statement": "If a reading passed to the value(sample) of a filter stack makes one of its filters throw, then value() of the stack is what it was before, and all later readings give what they would have given without the refused one.", "quantifier": "for every stack of the library's filters in every state, every reading that is refused and every series of readings after it; on any arithmetic (exact or single precision)", "why_tests_cant": "a refused reading may have been taken by filters in front of the one that throws; whether that shows depends on which filters there are, their states, and all the readings that follow", "anchors": ["src/spine/filter/filterstack.hpp:31-41", "src/spine/filter/implementations/bandpass.hpp:58-84", "src/spine/filter/implementations/mapped_range.hpp:46-60"]}
{"id": "C171", "title": "A PID with derivative part settles on every linear process that its gains suit", "statement": "A PID connected to any linear process (of any order, with dead time, or with several steps of the process per computation) brings the measured quantity to the setpoint with an error that shrinks geometrically while the controller is not at its limits, provided that all roots of the characteristic polynomial of the loop lie inside the unit circle; the factor is the same for all runs. If the process can be held at the setpoint by an output within the limits, runs that start near enough to that never reach the limits. For processes of first order the condition on the gains is given by inequalities.", "quantifier": "for all linear processes, all gains (with derivative part) that satisfy the root condition, all setpoints, loads and limits, all starting states and runs of any length; exact arithmetic", "why_tests_cant": "stability is a statement about all runs of unbounded length from all states; a test follows a few trajectories of one process for some time and with one set of gains", "anchors": ["src/spine/controller/pid.cpp:20-23", "src/spine/controller/implementations/pid/pid_controller.cpp:33-68"]}
{"id": "C172", "title": "A filter stack has the slots it was constructed with", "statement": "filter_slots() returns the number of slots given to the constructor, filter_slots_occupied() the number of attached filters; attaching is refused when all slots are occupied, and attaching into a free slot allocates no memory.", "quantifier": "all numbers of slots (0..255), all sequences of attached filters, all implementations of std::vector", "why_tests_cant": "Tests attach one or two filters with one standard library; whether the number of slots is ever the one asked for, for any number and any library, is a statement about all of them.", "anchors": ["src/spine/filter/filterstack.hpp:16", "src/spine/filter/filterstack.hpp:19", "src/spine/filter/filterstack.hpp:54", "src/spine/filter/filterstack.hpp:57"]}
{"id": "C173", "title": "An event handler belongs to one event system", "statement": "All uses of evsys() by a handler are of one event system: the one given to its constructor or to attach_event_system; using a handler without one, attaching it twice or to a null pointer is noticed.", "quantifier": "all histories of attaching and using a handler, debug and release builds", "why_tests_cant": "A test checks one history; that no history reaches a second event system or a null pointer is about all of them.", "anchors": ["src/spine/eventsystem/eventsystem.hpp:70", "src/spine/eventsystem/eventsystem.hpp:74", "src/spine/eventsystem/eventsystem.hpp:81"]}
{"id": "C174", "title": "A pointer to a buffered element stays valid until the element leaves the buffer", "statement": "A pointer obtained from peek_at of a ring buffer keeps pointing at its element through pushes (with and without rollover), pops, drops and queries, as long as this element is in the buffer; peek_at hands out the same pointer for it at the index it then has. Writing through the pointer changes this element and no other. Once the element has been popped its place is reused: the pointer then shows the next element stored there.", "quantifier": "every capacity, element type, reachable buffer, index and every history of calls (drop_first(0) and drop_last(0) excepted, which C04 shows to empty a full buffer) in which the element does not leave the buffer", "why_tests_cant": "The place depends on how far head and tail have wrapped around and on which elements were rolled over; tests read the value through the pointer straight after peek_at.", "anchors": ["src/spine/structure/ringbuffer.hpp:79-130", "src/spine/structure/ringbuffer.hpp:143-149"]}
{"id": "C175", "title": "Larger samples give larger filtered values", "statement": "If one series of samples is nowhere above another, the values a filter or a stack of filters returns for it are nowhere above those for the other; with an odd number of inverting filters (Invert, or MappedRange with an output range the other way round) nowhere below. A hotter sensor never reads colder after filtering.", "quantifier": "every pair of ordered series of samples of any length, every stack of filters of the library, float", "why_tests_cant": "Tests feed a few chosen samples into one filter; the claim relates two runs of a stack on arbitrary series, with rounding in every step.", "anchors": ["src/spine/filter/implementations/ewma.hpp:28-34", "src/spine/filter/implementations/mapped_range.hpp:46-60", "src/spine/filter/implementations/invert.hpp:34-37", "src/spine/filter/implementations/bandpass.hpp:58-84", "src/spine/filter/filterstack.hpp:31-38"]}
{"id": "C176", "title": "A fade takes one interval per increment", "statement": "fade_to sets its first value at once and one more each interval, each an increment closer to the setpoint; a fade over n increments takes n intervals. A fade over less than half an increment sets the setpoint and returns at once.", "quantifier": "every start, setpoint, increment, interval up to 2^24 ms and time of the clock", "why_tests_cant": "The number of steps comes from a loop that subtracts a float from a float; tests of fading look at the last value and not at the clock.", "anchors": ["src/spine/platform/gpio.cpp:9-26", "src/spine/platform/platform.hpp:96", "src/spine/platform/implementations/mock.hpp:220-223"]}
{"id": "C177", "title": "References to elements of a vector stay valid while other elements are added and removed", "statement": "A reference or pointer obtained from front(), back(), operator[] or an iterator of Vector keeps referring to the same element for as long as that element is in the vector: push_back, push_front, pop_front and pop_back of other elements do not move it.", "quantifier": "every vector in every reachable state, every element in it, every added element and both build types", "why_tests_cant": "Whether an element is moved depends on the position of the window in the storage, i.e. on the whole history of removals at the front; tests hold references over short sequences on fresh vectors only.", "anchors": ["src/spine/structure/vector.hpp:76-93", "src/spine/structure/vector.hpp:121-139", "src/spine/structure/vector.hpp:171-187", "src/spine/structure/vector.hpp:210-219"]}
{"id": "C178", "title": "Exceptions thrown by event handlers", "statement": "An exception thrown by an event handler reaches the caller of trigger() or loop(), and the event system can be used as before: no event is lost or delivered twice, no event object is leaked, the handlers attached before the one that threw have been called and those after it have not, the events that were due are delivered by the next loop(), and without exceptions nothing changes.", "quantifier": "every history of an event system, every behaviour of handlers including nested trigger() and loop() calls that throw, catch or pass exceptions on, every capacity, both build types", "why_tests_cant": "The places at which an exception can leave a handler, the nesting of trigger() and loop() at that moment and the state of the pool are unbounded; the tests contain no throwing handler.", "anchors": ["src/spine/eventsystem/eventsystem.cpp:58-88", "src/spine/eventsystem/eventsystem.hpp:126-155"]}
{"id": "C179", "title": "Line buffers remember their delimiters", "statement": "The delimiters given to the constructor of LineBuffer (and so of BufferedStream) or to set_delimiters() stay in force until others are set, whatever the caller does with the text they were given in.", "quantifier": "every history of calls of a line buffer, every text given as delimiters, and every change of the caller's texts between the calls", "why_tests_cant": "Whether the text is still there and unchanged depends on the caller's memory at every later call; tests pass string literals.", "anchors": ["src/spine/structure/linebuffer.hpp:13-22", "src/spine/structure/linebuffer.hpp:42", "src/spine/structure/linebuffer.cpp:5-10", "src/spine/structure/linebuffer.cpp:45-57"]}
{"id": "C180", "title": "Controller and mapped range do not depend on contraction by the compiler", "statement": "A build in which the compiler fuses any of the multiplications and additions of PIDController::update or MappedRange::value into one operation with one rounding (as GCC does by default where the processor can) keeps the guarantees of the others: the output of the controller stays inside its limits or is NaN, the same readings are used, output and integral stay as close to exact arithmetic as C138 says; the mapped range stays monotone, exact at its lower limit and as accurate as C135 says. The numbers themselves may differ between two builds.", "quantifier": "every choice of contracted places, all histories of calls, all gains, limits, setpoints and readings (for accuracy up to 2^120 or 2^125)", "why_tests_cant": "Tests run on one compiler and processor, usually a PC without contraction, and compare numbers of a few runs.", "anchors": ["src/spine/controller/implementations/pid/pid_controller.cpp:33-68", "src/spine/filter/implementations/mapped_range.hpp:46-60"]}
{"id": "C181", "title": "Products of units", "statement": "The product of two units of the same kind is the product of the two quantities: its raw value counts squares of the unit of the left operand, accurate to seven units in 2^24 for real units and exact for whole numbers of kernel time that fit; and, read as a value of its type, it does not depend on which of the two operands stands on the left, nor on the units they are expressed in, as for sums.", "quantifier": "all pairs of units, all finite operands whose converted value and product are neither too large nor too small for a normal float; all kernel times", "why_tests_cant": "A few products of values in one unit look right; the dependence on the order and on the units shows for mixed units only, and the rounding for particular values.", "anchors": ["src/spine/structure/units/primitives/unit.hpp:69-73", "src/spine/structure/units/primitives/unit.hpp:138-143"]}
{"id": "C182", "title": "Outputs stay off while they are initialised", "statement": "A digital output does not switch its device on unless its state is on: from the creation of the output, through initialize() and any calls after it, the pin drives the active level only if state() has been on after one of the calls.", "quantifier": "both polarities, both levels of the pin's latch before initialize(), all sequences of calls", "why_tests_cant": "Tests on a host have no pins, and the level between two statements lasts for microseconds.", "anchors": ["src/spine/platform/gpio.hpp:12-27", "src/spine/platform/implementations/arduino.hpp:37-60"]}
{"id": "C183", "title": "Periodic tasks that take time", "statement": "Event handlers that each take some time and then schedule their own event again, a period ahead, share the processor: if the tasks together keep the processor busy for less than all of the time, every call of loop() returns after a bounded time of work, and every task is called again and again, with its own period after the end of each call and late by no more than the bounded time of work and the longest time the program spends elsewhere between two calls of loop().", "quantifier": "all sets of tasks, fewer than events, with any costs and periods that are longer than the precision of the clock; all uptimes up to 2^40 ms; all sequences of times spent elsewhere; debug and release", "why_tests_cant": "whether loop() returns at all depends on how deadlines, costs and delays of all tasks meet over an unbounded time; tests use handlers that take no time", "anchors": ["src/spine/eventsystem/eventsystem.cpp: EventSystem::loop", "src/spine/eventsystem/eventsystem.hpp: EventSystem::schedule", "src/spine/eventsystem/pipeline.cpp: Pipeline"]}
{"id": "C184", "title": "A controller does not depend on the unit of the quantity", "statement": "A PID gives the same responses if the unit of the controlled quantity is changed, such as from millimetres to metres or from Celsius to Fahrenheit, and readings, setpoints and gains are given in the new unit.", "quantifier": "all changes of units (scale and offset), configurations and uses of a controller, exact arithmetic", "why_tests_cant": "over all units, gains and histories; a test picks one unit", "anchors": ["src/spine/controller/pid.cpp: PID, initialize, new_reading", "src/spine/controller/implementations/pid/pid_controller.cpp: initialize, update, set_tunings, set_sampling_time"]}
{"id": "C185", "title": "Filters and latches do not depend on the unit of the quantity", "statement": "A filter, a stack of filters and a latch give the same values, converted, the same exceptions and the same responses if the unit of the quantity is changed and samples, ranges, widths and thresholds are given in the new unit.", "quantifier": "all changes of units (scale and offset), all stacks of averages, mapped ranges, inverters and pass-through filters with a unit for each mapped range, all band-pass filters, all latches; all sequences of samples; exact arithmetic", "why_tests_cant": "over all units, configurations and histories; a test picks one unit, and the values that fail are single points", "anchors": ["src/spine/filter/implementations/ewma.hpp: EWMA", "src/spine/filter/implementations/mapped_range.hpp: MappedRange", "src/spine/filter/implementations/invert.hpp: Invert", "src/spine/filter/implementations/bandpass.hpp: BandPass", "src/spine/filter/filterstack.hpp: Stack", "src/spine/controller/sr_latch.cpp: SRLatch::new_reading"]}
{"id": "C186", "title": "Filters forget old samples", "statement": "Two filters, or stacks of filters, of the same configuration that get the same samples from some time on give the same values in the long run, whatever samples they had before.", "quantifier": "all stacks of filters, all histories of samples, exceptions and resets of each of the two, all infinite sequences of further samples; exact arithmetic", "why_tests_cant": "over infinite sequences and all histories; a test sees that a difference shrinks, not that it vanishes", "anchors": ["src/spine/filter/implementations/ewma.hpp: EWMA", "src/spine/filter/implementations/mapped_range.hpp: MappedRange", "src/spine/filter/implementations/invert.hpp: Invert", "src/spine/filter/implementations/bandpass.hpp: BandPass", "src/spine/filter/filterstack.hpp: Stack"]}
{"id": "C187", "title": "Controllers side by side do not drift apart", "statement": "Two PID controllers of the same settings that get the same readings, such as one in use and one on standby, give responses whose difference does not grow, so that either can replace the other without a jump.", "quantifier": "all configurations, all histories of the controllers before, all sequences of readings, setpoints, gains and initialisations after; exact arithmetic; debug and release", "why_tests_cant": "over all pairs of histories and unbounded sequences of common readings", "anchors": ["src/spine/controller/pid.cpp: PID, initialize, new_reading", "src/spine/controller/implementations/pid/pid_controller.cpp: initialize, update, set_tunings, set_sampling_time, set_output_limits"]}
{"id": "C188", "title": "A larger reading never gives a larger response", "statement": "With gains that are not negative, the larger one of two possible readings never gives the larger response, and the larger one of two possible setpoints never the smaller response; in reverse direction the other way round. The same holds for the response after two series of readings of which one is nowhere above the other.", "quantifier": "all states of the controller, all readings, setpoints, times, gains of one sign and limits; single precision, with overflow and infinities; all series of readings at the same times", "why_tests_cant": "rounding errors of a handful of operations at arbitrary operands, and series of any length", "anchors": ["src/spine/controller/pid.cpp: new_reading", "src/spine/controller/implementations/pid/pid_controller.cpp: update"]}
{"id": "C189", "title": "Filters and latches recover from an invalid reading", "statement": "After readings that are not numbers, such as those of a disconnected sensor, a filter or a stack of filters gives numbers again for readings that are numbers, at the latest after the configured number of rejections; a latch treats such a reading as one between its thresholds.", "quantifier": "all filters and stacks of any depth in any state, all sequences of valid and invalid readings; single precision with infinities; debug and release", "why_tests_cant": "any number of invalid readings at any point of any history", "anchors": ["src/spine/filter/implementations/bandpass.hpp: value, reset_to", "src/spine/filter/implementations/ewma.hpp: value", "src/spine/filter/implementations/mapped_range.hpp: value", "src/spine/filter/implementations/invert.hpp: value", "src/spine/filter/filterstack.hpp: value", "src/spine/controller/sr_latch.cpp: new_reading"]}
{"id": "C190", "title": "Timers, latches, controllers and pipelines do not depend on the uptime", "statement": "Constructing a Timer, AlarmTimer, IntervalTimer, SRLatch, PID or Pipeline and making the same calls gives the same answers, responses and outputs, if all of it happens d ms later. The code keeps this only up to 2^24 ms (4 h 39 min) of uptime: beyond, times are rounded to single precision when compared or subtracted, and a latch leaves its minimal on time too early, an interval comes early and an alarm comes late.", "quantifier": "all histories of calls, all times and shifts within 2^24 ms, all configurations, exact or single-precision readings, debug and release builds", "why_tests_cant": "tests start at a clock near zero; how the answers depend on the uptime takes a statement about all pairs of runs", "anchors": ["src/spine/structure/time/timers.cpp", "src/spine/controller/sr_latch.cpp", "src/spine/controller/implementations/pid/pid_controller.cpp", "src/spine/eventsystem/pipeline.hpp: Pipeline::push, expire", "src/spine/structure/units/primitives/unit.hpp: from_other"]}
{"id": "C191", "title": "Larger readings and lower thresholds never turn an SRLatch off", "statement": "Of two SRLatch objects without minimal and maximal times, made at the same time and given readings at the same times, the one whose readings are nowhere smaller and whose thresholds are not higher is on whenever the other is, after every reading, also beyond 2^24 ms where times are rounded. The same holds if both are given the averages of an EWMA instead. With a minimal on time, a maximal on time or a maximal off time it does not hold: the latch with the larger readings may be off while the other is on.", "quantifier": "all configurations without minimal and maximal times, all pairs of histories of readings, all times up to 2^60 ms; readings exact or in single precision, averages exact", "why_tests_cant": "a statement about pairs of histories of any length; a test compares a few", "anchors": ["src/spine/controller/sr_latch.cpp", "src/spine/controller/sr_latch.hpp", "src/spine/filter/implementations/ewma.hpp"]}
{"id": "C192", "title": "What works in a debug build works the same in a release build", "statement": "Calls that return in a debug build (DEBUG_SPINE defined: assertions are checked) return the same values and leave the same objects in a release build, where the assertions are compiled out. In particular no assertion has a side effect that later code relies on, although one of them, in the pipeline, calls a function that may change the pipeline.", "quantifier": "all histories of calls on vectors, stacks, pools, pipelines, event systems (with any handlers, also throwing ones), event data, PID controllers and their tuning against any process, buffers, buffered streams on any stream that itself does the same in both builds, transactions, devices on any port, results, analogue outputs, interrupts, static strings, dates, schedules, alarms on 64-bit and 32-bit clocks and filter stacks; exact and single-precision numbers", "why_tests_cant": "tests run in one of the builds; that the other build does the same for all histories takes a statement about pairs of programs", "anchors": ["src/spine/core/debugging.hpp", "src/spine/eventsystem/pipeline.cpp", "src/spine/eventsystem/eventsystem.cpp", "src/spine/structure/vector.hpp", "src/spine/structure/pool.hpp", "src/spine/structure/result.hpp", "src/spine/controller/pid.cpp", "src/spine/filter/filterstack.hpp", "src/spine/platform/gpio.cpp", "src/spine/io/stream"]}
{"id": "C193", "title": "A larger ring buffer holds and accepts no less", "statement": "The same calls made on two ring buffers, the second one with a larger capacity: the larger one accepts every push that the smaller one accepts (and of a bulk push at least as many elements), has no less free space, and holds everything that the smaller one holds, in the same order. If all pushes overwrite, the smaller one holds exactly the newest elements of the larger one. It does not hold with bulk pops, which take all they are asked for or nothing, nor with drop_last(0) and drop_first(0), which clear a full buffer.", "quantifier": "all pairs of capacities, element types and histories of calls without bulk pops and drops of zero elements; debug and release builds", "why_tests_cant": "a statement about pairs of capacities and all histories; a test fixes both", "anchors": ["src/spine/structure/ringbuffer.hpp"]}
{"id": "C194", "title": "The order in which events with different deadlines are pushed does not matter", "statement": "Futures pushed into a pipeline at one time with different delays may be pushed in any order: whatever was pushed and taken before, and whatever is done afterwards, every answer (which future expires, whether one is due, the time until the next) is the same, and the pipeline holds the same futures in the same order. With equal delays the first one pushed comes first. The code keeps this for delays up to 2^23 ms; with longer delays that differ by a millisecond, the order of the pushes decides.", "quantifier": "all histories of calls before and after, all numbers of pushes and permutations of them, delays from 1 to 2^23 ms, clocks up to 2^40 ms, capacities and debug and release builds", "why_tests_cant": "a statement about all permutations and all continuations", "anchors": ["src/spine/eventsystem/pipeline.cpp", "src/spine/eventsystem/pipeline.hpp"]}
{"id": "C195", "title": "Capacity beyond what is needed changes nothing", "statement": "A history of calls that suits a vector of some capacity gives the same answers and leaves the same contents with any larger capacity, although the larger vector moves its elements at other times; likewise a history of pushes, expiries and questions that suits a pipeline. The code does not keep this for pop_back and remove: a history with pop_back is answered rightly with capacity 2 and wrongly with capacity 3, and remove on a full vector reads past the end of the storage, which it does not with room to spare.", "quantifier": "all pairs of capacities, element types and histories of calls without pop_back, remove, front and the calls whose meaning is the capacity itself (full, max_size, fill); for pipelines delays up to 2^23 ms and clocks up to 2^40 ms; debug and release builds", "why_tests_cant": "a statement about pairs of capacities and all histories; a test fixes both", "anchors": ["src/spine/structure/vector.hpp", "src/spine/structure/array.hpp", "src/spine/eventsystem/pipeline.cpp"]}
{"id": "C196", "title": "Calls that achieve nothing leave no trace", "statement": "A program may poll as often as it likes: refused pushes and pops of a ring buffer and questions to it, polls of an alarm, polls that find an interval timer not expired, questions to a pipeline, readings that come too early for a PID to compute, readings between the thresholds that do not switch a latch, and attempts to read from a port that has nothing can be left out of any history without changing any other answer. The code does not keep this for dropping zero elements of a ring buffer, which empties a full one, for readings beyond the threshold that a latch has already reacted to, which restart its maximal time, and for a PID that is initialised after a reading that came too early.", "quantifier": "all histories, all choices of the idle calls that are left out, exact and single-precision numbers, debug and release builds; for alarms clocks up to 2^62 ms, for pipelines delays up to 2^23 ms and clocks up to 2^40 ms", "why_tests_cant": "a statement about pairs of histories of any length; how often a loop polls differs from run to run", "anchors": ["src/spine/structure/ringbuffer.hpp", "src/spine/structure/time/timers.cpp", "src/spine/controller/pid.cpp", "src/spine/controller/sr_latch.cpp", "src/spine/eventsystem/pipeline.cpp", "src/spine/io/stream/buffered_stream.cpp"]}
{"id": "C197", "title": "Delays on Arduino and delays in other units take at least the time asked for", "statement": "delay_ms and delay_us on Arduino pass exactly the time asked for, and HAL::delay given seconds, minutes, hours or days asks for exactly as many milliseconds. The code keeps this for delays of up to 50 minutes in other units than milliseconds; longer ones may be some ms short, as the conversion passes through a float. Delays of microseconds end too early if they do not fit into an unsigned int (65536 us on AVR take no time), delays given to HAL::delay in microseconds are rounded, and a negative delay lasts for more than 24 days.", "quantifier": "all times; all sizes of unsigned int; all units of kernel time", "why_tests_cant": "needs the hardware, and times of hours; depends on the sizes of the types", "anchors": ["src/spine/platform/implementations/arduino.hpp", "src/spine/platform/platform.hpp", "src/spine/structure/units/primitives/unit.hpp"]}
{"id": "C198", "title": "The response to a sum of signals is the sum of the responses", "statement": "What an exponentially weighted average shows of a weighted sum of two signals (say of a quantity and of noise) is the weighted sum of what it shows of each of them, after every sample. The same holds for the output of a PID, given weighted sums of readings and setpoints, from its first reading on and after every later one, as long as the controllers stay off their limits; the controllers compute at the same readings. At a limit it does not hold.", "quantifier": "all weights, all series of samples or readings at any times, all gains and both modes of proportionality, all frame lengths of the average; exact arithmetic", "why_tests_cant": "Linearity relates three runs of arbitrary length for all signals and weights; a test compares a few signals.", "anchors": ["src/spine/filter/implementations/ewma.hpp", "src/spine/controller/pid.cpp", "src/spine/controller/implementations/pid/pid_controller.cpp:33-68"]}
{"id": "C199", "title": "Repeating a setting changes nothing", "statement": "A program may make a setting again without harm: setting the same gains, direction, limits or sampling time of a PID, initialising it again before it takes a reading, stripping a text or a StaticString of the same characters, simplifying a fraction, setting an output to the same state, attaching the same interrupt or detaching it, resetting a filter or a filter stack to the same value. The second call succeeds if the first one did, and leaves the object as it is. The code does not keep this for rstrip of a text, where each call takes characters off the beginning, nor for simplify of negative fractions of integers, which gives another fraction each time.", "quantifier": "all states of the objects, all arguments, both builds; gains, direction, limits and filters in any arithmetic, sampling time and initialize in exact arithmetic and with floats, simplify in integers and in exact arithmetic", "why_tests_cant": "Whether a setter only depends on its argument has to hold in every state that an object can be in; a test tries a few.", "anchors": ["src/spine/controller/implementations/pid/pid_controller.cpp:70-119", "src/spine/controller/pid.cpp:12-16", "src/spine/core/utils/string.cpp:10-25", "src/spine/structure/static_string.cpp", "src/spine/structure/units/primitives/compound_unit.hpp", "src/spine/platform/implementations/arduino.hpp:187-213", "src/spine/filter/filterstack.hpp:47-51"]}
{"id": "C200", "title": "Undoing a call restores what was before", "statement": "A call and the call that undoes it leave things as they were: dropping from a ring buffer as many of the newest elements as a push without overwriting accepted; pop_front after push_front and pop_back after push_back on a vector, which return the element that was put there; remove after insert at the same index; flipping an output twice; inverting a sample twice; mapping a sample and mapping it back with the ranges exchanged; reversing a controller and reversing it back. The code does not keep this for a push refused by a full ring buffer, where dropping the zero accepted elements empties the buffer, nor for insert and remove on a vector that has lost its first element, nor for the sampling time of a PID, where going to any other sampling time and back sets the integral gain to zero, nor for its limits, where going to narrower limits and back clamps the output and the sum.", "quantifier": "all reachable ring buffers and vectors of any capacity, all elements and indices, all outputs, all samples and ranges and all controllers in exact arithmetic, both builds", "why_tests_cant": "Whether two calls cancel depends on the history of the object, for a vector on where its elements lie; tests try a few histories.", "anchors": ["src/spine/structure/ringbuffer.hpp", "src/spine/structure/vector.hpp:133-263", "src/spine/platform/gpio.hpp:17-22", "src/spine/filter/implementations/invert.hpp:34-37", "src/spine/filter/implementations/mapped_range.hpp:46-60", "src/spine/controller/implementations/pid/pid_controller.cpp:70-119"]}
{"id": "C201", "title": "Settings of different things can be made in any order", "statement": "The input, the setpoint, the gains, the direction and the limits of a controller can be set in any order: every permutation of the calls has the same outcome and leaves the same controller. The same holds for the sampling time instead of the gains. Interrupts of different lines can be attached in either order. The code does not keep this for the gains together with the sampling time: unless the new sampling time is a multiple of the former one, the integral gain is smaller when the gains are set first.", "quantifier": "all controllers in any state, all lists of settings of different things and all their permutations, both builds; in exact arithmetic, and with floats when the direction is not set together with the gains or the sampling time; all boards, pins, callbacks and triggers", "why_tests_cant": "The number of orders grows with the factorial of the number of settings, and each has to agree in every state; tests configure objects in one order.", "anchors": ["src/spine/controller/implementations/pid/pid_controller.cpp:70-119", "src/spine/platform/implementations/arduino.hpp:187-211"]}
{"id": "C202", "title": "How data is cut into pieces does not matter", "statement": "A block pushed into a ring buffer, a line buffer, a mock stream or the output buffer of a stream may be cut into pieces of any lengths, down to single elements: as many elements are accepted as of the whole block and the object is the same in the end. Elements popped or dropped in pieces are those popped or dropped at once, and the same elements remain. The code does not keep this for a pop of more elements than there are, which takes none although a smaller piece could be taken, nor for dropping zero elements from a full buffer, which empties it.", "quantifier": "all states of the objects, all blocks and all ways to cut them, with and without overwriting; for pop and drop all reachable ring buffers of any capacity", "why_tests_cant": "A block of n elements can be cut in exponentially many ways, in every state of the buffer; data arrives from ports in pieces that no test foresees.", "anchors": ["src/spine/structure/ringbuffer.hpp:93-132", "src/spine/structure/linebuffer.cpp:8", "src/spine/io/stream/implementations/mock.hpp:30", "src/spine/io/stream/buffered_stream.cpp:9-11"]}
{"id": "C203", "title": "Retuning a controller at rest does not move its output", "statement": "When the process variable stands at the setpoint, the output of the controller stays where it is, whatever gains, proportionality, direction, sampling time or limits around the output are set, however often, and however often the controller is initialised. The controller comes to rest with the second computation in a row for which the reading is the setpoint. Away from rest, new gains move the next output by no more than the change of each gain times the present error or the present change of the reading: past errors are not weighted anew.", "quantifier": "all controllers, gains, limits, values and sequences of these operations of any length, in exact arithmetic; with IEEE floats all sequences of readings, setpoints, gains and initialisations as long as the gains in use are finite", "why_tests_cant": "Retuning under way is a matter of every state the controller can be in and of every later computation; a test tries a few gains at one moment.", "anchors": ["src/spine/controller/implementations/pid/pid_controller.cpp:23-119", "src/spine/controller/pid.cpp:12-23"]}
{"id": "C204", "title": "Heating and cooling are mirror images", "statement": "A PID for the opposite direction, given readings and setpoints of opposite sign, gives the same responses after any use, the same floats up to the sign of a zero, and the same assertions fail. An exponentially weighted average of samples of opposite sign has the opposite value. An SRLatch with thresholds and readings of opposite sign and with its times exchanged is off where the other one is on.", "quantifier": "all configurations, all sequences of calls of any length, all single precision floats including infinities and NaN; for the latch all series of readings and times, thresholds in order", "why_tests_cant": "Equality of the floats is a matter of every rounding on the way; a test of one direction says nothing about the other one for the infinitely many histories.", "anchors": ["src/spine/controller/implementations/pid/pid_controller.cpp:33-119", "src/spine/controller/pid.cpp:5-23", "src/spine/filter/implementations/ewma.hpp:28-34", "src/spine/controller/sr_latch.cpp:5-30"]}
{"id": "C205", "title": "A controller does not see when its readings were taken", "statement": "The output of a PID depends on the readings it computed with, the setpoints and the gains, in their order, and on nothing else: readings that come before the sampling period is over leave no trace, and if readings come late or irregularly, but never early, the outputs are those of readings on time. The gains count per computation, not per time that has passed.", "quantifier": "all controllers, all histories of readings, setpoints and gains of any length at any times, in any arithmetic (exact or float)", "why_tests_cant": "The times of readings on a real device are never those of a test; there are infinitely many patterns of delays.", "anchors": ["src/spine/controller/implementations/pid/pid_controller.cpp:33-68", "src/spine/controller/pid.cpp:18-23"]}
{"id": "C206", "title": "The sign of a zero makes no difference", "statement": "A controller, a latch, a filter and a stack of filters that are given -0 where others are given 0 (or one NaN for another) respond with the same numbers, up to signs of zeros, compute at the same times and fail or throw in the same cases. The frame length of an average is the exception: an average over -0 samples becomes the other infinity.", "quantifier": "all configurations, states and histories; all single precision floats; all stacks of filters of the library in any order", "why_tests_cant": "Zeros of either sign come out of roundings and products at places that a test does not foresee; their effect is a matter of every later operation.", "anchors": ["src/spine/controller/implementations/pid/pid_controller.cpp:23-119", "src/spine/controller/sr_latch.cpp:5-30", "src/spine/filter/implementations/bandpass.hpp:58-98", "src/spine/filter/implementations/ewma.hpp:28-47", "src/spine/filter/implementations/mapped_range.hpp:46-60", "src/spine/filter/implementations/invert.hpp:34-37"]}
{"id": "C207", "title": "An average never loses count of its samples", "statement": "However many samples an EWMA of floats has taken, it knows whether it has had any, and its count is exact up to 2^24 samples and stays at 2^24 after that. Each sample moves the value by its distance divided by the number of samples, the frame length or 2^24, whichever is least; so frames of more than 2^24 samples all act as frames of 2^24 samples.", "quantifier": "all frame lengths, all series of samples of any length, from a new filter or from a reset, single precision", "why_tests_cant": "The effect starts after 16.7 million samples; no test shows that a counter held in a float does not return to zero or overflow after any number of samples.", "anchors": ["src/spine/filter/implementations/ewma.hpp:28-34", "src/spine/filter/implementations/ewma.hpp:52"]}
{"id": "C208", "title": "A change of the setpoint acts gradually", "statement": "After the setpoint has been changed, the output differs from what it would have been by no more than the integral gain times the change for each computation made since. With the proportional part on the error, the proportional gain times the change is added to that; with the proportional part on the measurement, it is not. The derivative part never reacts to the setpoint. In single precision the same holds up to the rounding errors of C138.", "quantifier": "all states with ordered limits, gains, setpoints, series of readings and times; in single precision all finite numbers within given bounds", "why_tests_cant": "the difference of two runs, for all lengths of both: a test shows the kick for one change in one state", "anchors": ["src/spine/controller/implementations/pid/pid_controller.cpp: update", "src/spine/controller/pid.hpp: set_target_setpoint"]}
{"id": "C209", "title": "A latch switches no more often than its minimal times allow", "statement": "Whatever the readings are and however often they come, of the changes of an SRLatch every two after the first take at least the minimal on time and the minimal off time together: in a time t there are at most 2 t / (minimal on + minimal off) + 2 changes. This is exact while the clock and the minimal times are below 2^24 ms, and holds up to the rounding of times after that.", "quantifier": "all thresholds, minimal and maximal times, start times, readings and their times, any number of readings", "why_tests_cant": "a bound on the number of changes in histories of any length, which counts for the wear of a relay; a test counts the changes in one history", "anchors": ["src/spine/controller/sr_latch.cpp: new_reading", "src/spine/controller/sr_latch.hpp: set"]}
{"id": "C210", "title": "A band-pass filter never shows an outdated value", "statement": "Unless the newest sample made it throw, the value of a BandPass is one of the last limit + 1 samples: no older one is shown, however the samples jump. What a new filter shows after its first sample has been measured: it is always one of its samples, whether it threw or not.", "quantifier": "all configurations, samples, any number of them, any arithmetic; every state with a count of rejections that is not negative", "why_tests_cant": "the age of the value is bounded for histories of any length; a test looks at a few histories", "anchors": ["src/spine/filter/implementations/bandpass.hpp: value"]}
{"id": "C211", "title": "The order of earlier readings does not matter", "statement": "As long as no more samples have come than the frame is long, an EWMA that gets the same samples in another order is the same afterwards, and with all further samples; in single precision up to the rounding errors of C135. Away from its limits, a PID in exact arithmetic gives the same output for the same readings in another order, if the last two are the same. Once the frame is full, or at the limits, the order matters.", "quantifier": "all samples and readings, all their permutations, all states, gains and frame lengths", "why_tests_cant": "all permutations of series of any length", "anchors": ["src/spine/filter/implementations/ewma.hpp: value", "src/spine/controller/implementations/pid/pid_controller.cpp: update"]}
{"id": "C212", "title": "A ring buffer that is emptied often enough loses nothing", "statement": "A producer puts a block into a RingBuffer in every round and a consumer then takes at most k elements. If no stretch of consecutive rounds brings more than B elements beyond k per round, a buffer of B + k places takes every element, with or without overwriting; the consumer gets all of them in order, at most B wait at the end of a round, and everything put in before m rounds with m * k >= B has arrived after them. With one place less, a permitted block is not taken whole, or, with overwriting, its first element is lost.", "quantifier": "all element types, block sizes and contents, numbers of rounds, burst sizes and rates, both modes of pushing", "why_tests_cant": "all series of blocks within the bound, of any length", "anchors": ["src/spine/structure/ringbuffer.hpp: push, pop"]}
{"id": "C213", "title": "Two ring buffers one behind the other", "statement": "A program puts blocks into one RingBuffer, moves elements to a second one with pop and push as long as the second is not full(), and takes elements out of the second, in any order and number. The elements that came out, those in the second buffer and those in the first are together, in this order, exactly the elements the first buffer accepted; each transfer moves as many of the oldest elements as are asked for, are there and find a place. A transfer that does not look at full() loses an element whenever the second buffer is full.", "quantifier": "all series of puts, transfers and gets of any length, all sizes of both buffers, all element types", "why_tests_cant": "all interleavings of unbounded length", "anchors": ["src/spine/structure/ringbuffer.hpp: push, pop, full"]}
{"id": "C214", "title": "Offering again what a ring buffer did not take", "statement": "A producer hands blocks to a RingBuffer with push(buffer, length), keeps what the returned number says was not taken and offers it first in the next round; a consumer takes at most k elements per round. However small the buffer, what came out, what is stored and what is kept are together, in this order, everything handed over. Once no new elements come, all have arrived after m rounds, if m times the smaller of k and the capacity is at least their number.", "quantifier": "all series of blocks of any length and size, all capacities, all numbers k and m, all element types", "why_tests_cant": "all series of unbounded length, and termination of the exchange", "anchors": ["src/spine/structure/ringbuffer.hpp: push, pop"]}
