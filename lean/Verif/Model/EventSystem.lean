import Verif.Model.Pipeline
/-!
# Model of `spn::core::EventSystem`

`/repo/src/spine/eventsystem/eventsystem.hpp` and `eventsystem.cpp`.

* Event objects are named by `ω`; the pool (`_store`) and the pipeline hold shared pointers to them.  The use count of an
  object is what the slots of the pool own, plus what the slots of the pipeline own, plus the handles held by the rest
  of the program.
* Handlers are named by `H`.  What a handler does is an arbitrary program `Prog`, chosen from everything that has
  happened so far: it can read the clock, take time, obtain, schedule and drop events, trigger events directly, attach
  handlers, and call `loop()`.  A handler does not touch events it has no handle for.
* The clock only moves when a program says so and when `loop()` sleeps.
* `trace` and `count` are ghosts: no operation reads them, except that handlers may depend on `trace`.
-/

namespace Spine

/-- What a program does with the event system. -/
inductive Prog (ω δ H : Type)
  | done
  /-- read the clock -/
  | now (k : Int → Prog ω δ H)
  /-- take time -/
  | wait (ms : Nat) (k : Prog ω δ H)
  /-- `schedule(id, delay, data)` -/
  | schedule (id : Nat) (delay : Int) (data : δ) (k : Prog ω δ H)
  /-- `trigger(id, data)` -/
  | trigger (id : Nat) (data : δ) (k : Prog ω δ H)
  /-- `event(id, delay, data)`, keeping the handle -/
  | event (id : Nat) (delay : Int) (data : δ) (k : Option ω → Prog ω δ H)
  /-- `schedule(std::move(handle))` -/
  | submit (o : ω) (k : Prog ω δ H)
  /-- drop a handle -/
  | drop (o : ω) (k : Prog ω δ H)
  /-- `attach(id, handler)` -/
  | attach (id : Nat) (h : Option H) (k : Prog ω δ H)
  /-- `loop()` -/
  | loop (k : Prog ω δ H)

/-- What happened. -/
inductive Entry (δ H : Type)
  /-- an event was put into the pipeline -/
  | scheduled (e : Event δ) (time : Int)
  /-- `loop()` took an event out of the pipeline and triggers it; `depth` counts the `trigger` calls the `loop()` is nested in -/
  | fired (e : Event δ) (time : Int) (depth : Nat)
  /-- a handler is called; `depth` counts the `trigger` calls it is nested in -/
  | called (h : H) (e : Event δ) (depth : Nat) (time : Int)
  /-- `loop()` sleeps -/
  | slept (ms : Int)
  /-- `attach` was called and returned -/
  | attached (id : Nat) (h : Option H)

/-- `EventSystem::Config`, `eventsystem.hpp:92-99`. -/
structure Config where
  /-- `events_count` -/
  eventsCount : Nat
  /-- `events_cap` -/
  eventsCap : Nat
  /-- `handler_cap` -/
  handlerCap : Nat
  /-- `delay_between_ticks` -/
  delayBetweenTicks : Bool
  /-- `min_delay_between_ticks`, in µs -/
  minDelay : Int
  /-- `max_delay_between_ticks`, in µs -/
  maxDelay : Int
  deriving DecidableEq, Repr

/-- The default delays, `eventsystem.hpp:97-98`: `k_time_us` made from `k_time_ms`. -/
def Config.withDefaults (eventsCount eventsCap handlerCap : Nat) (delayBetweenTicks : Bool) : Res Config := do
  return { eventsCount, eventsCap, handlerCap, delayBetweenTicks,
           minDelay := ← KTime.convert .milli .micro 100, maxDelay := ← KTime.convert .milli .micro 1000 }

/-- `EventSystem`, `eventsystem.hpp:161-166`.  `store.outside` is the number of handles held by the program. -/
structure ES (ω δ H : Type) where
  /-- `_cfg` -/
  cfg : Config
  /-- `_map`: per event id a vector of handler pointers -/
  map : List (Vec (Option H))
  /-- `_pipeline` -/
  pipe : Pipe ω δ
  /-- `_store` -/
  store : Pool ω
  /-- handles in local variables of `loop()` and `trigger()`, newest first -/
  locals : List ω
  /-- `HAL::millis()` -/
  clock : Int
  /-- ghost: how many events were scheduled so far -/
  count : Nat
  /-- ghost: what happened, newest first -/
  trace : List (Entry δ H)

/-- What a handler does when called with an event, depending on everything that happened before. -/
abbrev Behaviour (ω δ H : Type) := H → List (Entry δ H) → Event δ → Prog ω δ H

namespace ES

variable {ω δ H : Type} [DecidableEq ω] (b : Build)

/-- Raw pointers: null is all-zero bytes, moving copies. -/
abbrev rawPtr (H : Type) : Elem (Option H) := { zero := none, moved := id }

/-- The constructor, `eventsystem.cpp:33-45`.  `objs` are the objects made by `std::make_shared<Event>()`; a fresh event is
`Event()`, i.e. `Future(0)` made at time `now` (`pipeline.cpp:7`). -/
def create (cfg : Config) (objs : List ω) (blank : δ) (now : Int) : Res (ES ω δ H) := do
  let store ← objs.foldlM (fun p o => p.populate b o) (Pool.create cfg.eventsCap (fun _ => 0))
  return { cfg
           map := List.replicate cfg.eventsCount (Vec.create (rawPtr H) cfg.handlerCap)
           pipe := { vec := Vec.create (sharedPtr ω) cfg.eventsCap
                     heap := fun _ => { timeFromNow := 0, timer := ⟨now, false⟩, id := 0, data := blank, seq := 0 } }
           store, locals := [], clock := now, count := 0, trace := [] }

variable (s : ES ω δ H)

/-- `attach(id, handler)`, `eventsystem.hpp:111-118`. -/
def attach (id : Nat) (h : Option H) : Res (ES ω δ H) := do
  spnAssert b h.isSome
  spnAssert b (decide (id < s.map.length))
  let v ← rd s.map id
  spnAssert b (decide (v.size < s.cfg.handlerCap))
  let v ← v.pushBack b (rawPtr H) h
  return { s with map := s.map.set id v, trace := .attached id h :: s.trace }

/-- `detach(handler)`, `eventsystem.hpp:120`: "not implemented". -/
def detach (_h : H) : Res (ES ω δ H) := do
  spnAssert b false
  return s

/-- The pool with all handles outside its slots: those in the pipeline, those of the program and those in local variables of
`loop()` and `trigger()`. -/
def pool : Pool ω :=
  { s.store with outside := fun o => (slotRefs o s.pipe.vec.log).toNat + s.store.outside o + s.locals.count o }

/-- `event(id, time_from_now, data)`, `eventsystem.hpp:135-146`; who keeps the returned handle is up to the caller.  The loops of
`acquire` get as many rounds as there are objects, and one more. -/
def fetch (id : Nat) (delay : Int) (data : δ) : Res (Option ω × ES ω δ H) := do
  let (x, p) ← s.pool.acquire b (s.store.vec.size + 1)
  let s := { s with store := { p with outside := s.store.outside } }
  spnAssert b x.isSome
  match x with
  | none => return (none, s)
  | some o => return (some o, { s with pipe := s.pipe.store o { s.pipe.heap o with id, data, timeFromNow := delay } })

/-- `event(id, time_from_now, data)` called by the program, which keeps the handle. -/
def event (id : Nat) (delay : Int) (data : δ) : Res (Option ω × ES ω δ H) := do
  let (x, s) ← s.fetch b id delay data
  return (x, { s with store := s.store.gain x })

/-- Ghost: number the event that is about to be scheduled. -/
def stamp (x : Option ω) : ES ω δ H :=
  match x with
  | some o => { s with pipe := s.pipe.store o { s.pipe.heap o with seq := s.count } }
  | none => s

/-- `schedule(std::shared_ptr<Event>&&)`, `eventsystem.hpp:155`.  The handle of the caller was moved into a temporary, which
is dropped after the pipeline has copied it. -/
def enqueue (x : Option ω) : Res (ES ω δ H) := do
  let s := s.stamp x
  let pipe ← s.pipe.push b x s.clock (fun _ => (s.clock, s.clock))
  let o ← deref x
  return { s with pipe, count := s.count + 1, trace := .scheduled (pipe.heap o) s.clock :: s.trace }

/-- `schedule(id, time_from_now, data)`, `eventsystem.hpp:148-152`. -/
def schedule (id : Nat) (delay : Int) (data : δ) : Res (ES ω δ H) := do
  let (x, s) ← s.fetch b id delay data
  s.enqueue b x

/-- A local variable of `loop()` or `trigger()` takes a handle. -/
def hold (o : ω) : ES ω δ H := { s with locals := o :: s.locals }

/-- The local variable goes out of scope. -/
def unhold (o : ω) : ES ω δ H := { s with locals := s.locals.erase o }

/-- `trigger(id, data)`, `eventsystem.hpp:129-133` and `eventsystem.cpp:58-61`; `call` is `trigger(const Event&)`. -/
def triggerId (call : ES ω δ H → Event δ → Res (ES ω δ H)) (id : Nat) (data : δ) : Res (ES ω δ H) := do
  let (x, s) ← s.fetch b id 0 data
  spnAssert b x.isSome
  let o ← deref x
  let s ← call (s.hold o) (s.pipe.heap o)
  return s.unhold o

/-- The program gives up a handle, which it must have. -/
def give (o : ω) : Res (ES ω δ H) :=
  if s.store.outside o = 0 then .error .ub else .ok { s with store := s.store.release o }

/-- Run a program; `call` is `trigger(const Event&)` and `poll` is `loop()`. -/
def exec (call : ES ω δ H → Event δ → Res (ES ω δ H)) (poll : ES ω δ H → Res (ES ω δ H)) : ES ω δ H → Prog ω δ H → Res (ES ω δ H)
  | s, .done => .ok s
  | s, .now k => exec call poll s (k s.clock)
  | s, .wait ms k => exec call poll { s with clock := s.clock + ms } k
  | s, .schedule id delay data k => do exec call poll (← s.schedule b id delay data) k
  | s, .trigger id data k => do exec call poll (← s.triggerId b call id data) k
  | s, .event id delay data k => do
    let (x, s) ← s.event b id delay data
    exec call poll s (k x)
  | s, .submit o k => do
    let s ← s.give o
    exec call poll (← s.enqueue b (some o)) k
  | s, .drop o k => do exec call poll (← s.give o) k
  | s, .attach id h k => do exec call poll (← s.attach b id h) k
  | s, .loop k => do exec call poll (← poll s) k

/-- One call of a handler, `eventsystem.cpp:69`. -/
def handle (beh : Behaviour ω δ H) (call : ES ω δ H → Event δ → Res (ES ω δ H)) (poll : ES ω δ H → Res (ES ω δ H)) (depth : Nat)
    (e : Event δ) (s : ES ω δ H) (x : Option H) : Res (ES ω δ H) := do
  let h ← deref x
  exec b call poll { s with trace := .called h e depth s.clock :: s.trace } (beh h s.trace e)

/-- The range-based `for` of `trigger(const Event&)`, `eventsystem.cpp:68-70`, with `n` slots left, the next one being `i`.  `begin()`
and `end()` are taken before the first call (`vector.hpp:280-293`); a slot is read when its turn comes, so that handlers attached in
between are in the vector but not visited. -/
def visit (f : ES ω δ H → Option H → Res (ES ω δ H)) (id : Nat) : Nat → Nat → ES ω δ H → Res (ES ω δ H)
  | 0, _, s => .ok s
  | n + 1, i, s => do
    let v ← rd s.map id
    let x ← rd v.store i
    visit f id n (i + 1) (← f s x)

/-- The `while` loop of `loop()`, `eventsystem.cpp:74-80`; `call` is `trigger(const Event&)`, `fuel` bounds the rounds. -/
def drainWith (call : ES ω δ H → Event δ → Res (ES ω δ H)) (depth : Nat) : Nat → ES ω δ H → Res (ES ω δ H)
  | 0, _ => .error .fuel
  | fuel + 1, s => do
    let (due, pipe) ← s.pipe.containsExpired b s.clock
    let s := { s with pipe }
    if due then
      let (x, pipe) ← s.pipe.expire b s.clock
      spnAssert b x.isSome
      let o ← deref x
      let e := pipe.heap o
      let s := { s.hold o with pipe, trace := .fired e s.clock depth :: s.trace }
      let s ← call s e
      drainWith call depth fuel (s.unhold o)
    else return s

/-- A call of `HAL::delay_ms`: the clock moves on.  A negative time does not sleep. -/
def sleepFor (ms : Int) : ES ω δ H := { s with clock := s.clock + max ms 0, trace := .slept ms :: s.trace }

/-- The end of `loop()`, `eventsystem.cpp:82-87`.  `std::min` compares the raw numbers, a count of ms and a count of µs; the result
goes to `delay_ms(uint32_t)` (`platform.hpp:108`).  The other call goes to `delay(k_time_ms)` (`platform.hpp:96`). -/
def sleep : Res (ES ω δ H) :=
  if s.cfg.delayBetweenTicks then
    if s.pipe.containsFutures then do
      let next ← s.pipe.timeUntilNext b s.clock
      return s.sleepFor ((min next s.cfg.maxDelay) % 2 ^ 32)
    else do
      let ms ← KTime.convert .micro .milli s.cfg.minDelay
      return s.sleepFor ms
  else .ok s

/-- `loop()`, `eventsystem.cpp:73-88`; `call` is `trigger(const Event&)`. -/
def loopWith (call : ES ω δ H → Event δ → Res (ES ω δ H)) (depth fuel : Nat) (s : ES ω δ H) : Res (ES ω δ H) := do
  let s ← s.drainWith b call depth fuel
  s.sleep b

/-- `trigger(const Event&)`, `eventsystem.cpp:63-71`; `fuel` bounds the nesting, and `rounds` the rounds of every `loop()` called by a
handler. -/
def trigger (beh : Behaviour ω δ H) (rounds : Nat) : Nat → Nat → ES ω δ H → Event δ → Res (ES ω δ H)
  | 0, _, _, _ => .error .fuel
  | fuel + 1, depth, s, e => do
    spnAssert b (decide (e.id < s.map.length))
    let v ← rd s.map e.id
    spnAssert b (!v.empty)
    visit (handle b beh (trigger beh rounds fuel (depth + 1)) (fun s => s.loopWith b (trigger beh rounds fuel (depth + 1)) (depth + 1) rounds)
      depth e) e.id v.size v.head s

/-- The `while` loop of `loop()` called by the program; `nest` bounds the nesting of `trigger`. -/
def drain (beh : Behaviour ω δ H) (rounds nest fuel : Nat) : Res (ES ω δ H) := s.drainWith b (trigger b beh rounds nest 0) 0 fuel

/-- `loop()` called by the program. -/
def loop (beh : Behaviour ω δ H) (nest fuel : Nat) : Res (ES ω δ H) := s.loopWith b (trigger b beh fuel nest 0) 0 fuel

/-- The program does something. -/
def run (beh : Behaviour ω δ H) (nest fuel : Nat) (p : Prog ω δ H) : Res (ES ω δ H) :=
  s.exec b (trigger b beh fuel nest 0) (fun s => s.loop b beh nest fuel) p

/-- `~EventSystem`, `eventsystem.cpp:47-56`, then the implicit destructors of the members: `~Pool` of `_store` (`pool.hpp:18-22`), and those
of the vector of `_pipeline` and of `_store`, which free the block without running the destructors of the pointers in it
(`array.hpp:148-154`).  The loop of `~EventSystem` is that of `~Pool`.  The result holds the final reference counts. -/
def destroy (fuel : Nat) : Res (ES ω δ H) := do
  let store ← s.store.destroyLoop b 0 fuel
  spnAssert b (store.size == 0)
  let store ← store.destroy b fuel
  return { s with map := [], store }

end ES
end Spine
