import Verif.Model.Base
import Verif.Model.WebApp
import Verif.Model.Learn
/-!
# Training monitors and running applications

`zounds/ui/training_monitor.py` (the websocket pages of a training monitor), the callbacks of `zounds/learn/trainer.py` they hang on, and the life of
the server thread in `zounds/ui/baseapp.py`.  The training loop and the web server run in different threads; the model has two layers: notifications as atomic steps, and
notifications that are interleaved with the arrival and departure of pages.
-/

namespace Zounds.Monitor
open Zounds

variable {κ V : Type} [DecidableEq κ]

/-- The keyword arguments of `on_batch_complete`: epoch, batch and the values that may be graphed (`vals k = none` where the lookup is a KeyError). -/
structure Kw (κ V : Type) where
  epoch : Nat
  batch : Nat
  vals : κ → Option V

/-- The JSON object a page is sent (training_monitor.py:82-95). -/
structure Msg (κ V : Type) where
  epoch : Nat
  batch : Nat
  data : List (κ × V)

/-- training_monitor.py:88-95: the keys without a value are left out (`keys_to_graph` has no repetitions and neither `epoch` nor `batch`). -/
def message (keys : List κ) (kw : Kw κ V) : Msg κ V :=
  ⟨kw.epoch, kw.batch, keys.filterMap fun k => (kw.vals k).map fun v => (k, v)⟩

/-- What is registered with the trainer: the monitor's own history (training_monitor.py:49-50), the function of page `c` (99-102), or another callback. -/
inductive Cb where
  | history
  | page (c : Nat)
  | other (n : Nat)
  deriving DecidableEq, Repr

/-- The settings of a monitor (training_monitor.py:16-50). -/
structure Cfg (κ : Type) where
  keys : List κ
  frequency : Nat
  points : Nat

/-- The trainer's callbacks in the order of registration, the monitor's history, what each page has received, and the pages whose connection is gone. -/
structure State (κ V : Type) where
  cbs : List Cb
  history : κ → List V
  inbox : Nat → List (Msg κ V)
  lost : List Nat

/-- training_monitor.py:99-102 `open`: a dict entry at the end (trainer.py:76-77); a page is opened with a new function. -/
def openPage (c : Nat) (s : State κ V) : State κ V :=
  { s with cbs := if Cb.page c ∈ s.cbs then s.cbs else s.cbs ++ [Cb.page c] }

/-- training_monitor.py:104-106 `on_close` (trainer.py:79-84). -/
def closePage (c : Nat) (s : State κ V) : State κ V := { s with cbs := s.cbs.filter (· ≠ Cb.page c) }

/-- The connection of a page breaks; `on_close` follows later. -/
def losePage (c : Nat) (s : State κ V) : State κ V := { s with lost := c :: s.lost }

/-- One callback.  `batch % 0` is a ZeroDivisionError; writing to a page whose connection is gone is tornado's WebSocketClosedError. -/
def call (cfg : Cfg κ) (kw : Kw κ V) (s : State κ V) : Cb → Except PyErr (State κ V)
  | .other _ => .ok s
  | .history =>
    if cfg.frequency = 0 then .error .zeroDivision
    else .ok { s with history := fun k => if k ∈ cfg.keys then Web.collect cfg.frequency cfg.points (s.history k) kw.batch (kw.vals k) else s.history k }
  | .page c =>
    if cfg.frequency = 0 then .error .zeroDivision
    else if kw.batch % cfg.frequency ≠ 0 then .ok s
    else if c ∈ s.lost then .error .connectionError
    else .ok { s with inbox := fun d => if d = c then s.inbox c ++ [message cfg.keys kw] else s.inbox d }

/-- Callbacks one after the other until one raises. -/
def callAll (cfg : Cfg κ) (kw : Kw κ V) : State κ V → List Cb → Except PyErr (State κ V)
  | s, [] => .ok s
  | s, c :: cs => match call cfg kw s c with
    | .error e => .error e
    | .ok s' => callAll cfg kw s' cs

/-- trainer.py:86-88 `on_batch_complete`, when nothing is registered or removed meanwhile. -/
def notify (cfg : Cfg κ) (kw : Kw κ V) (s : State κ V) : Except PyErr (State κ V) := callAll cfg kw s s.cbs

/-- What happens to a monitor. -/
inductive Ev (κ V : Type) where
  | opened (c : Nat)
  | broken (c : Nat)
  | closed (c : Nat)
  | batch (kw : Kw κ V)

/-- One event. -/
def step (cfg : Cfg κ) (s : State κ V) : Ev κ V → Except PyErr (State κ V)
  | .opened c => .ok (openPage c s)
  | .broken c => .ok (losePage c s)
  | .closed c => .ok (closePage c s)
  | .batch kw => notify cfg kw s

/-- A history of events; an exception in a callback leaves the training loop. -/
def run (cfg : Cfg κ) : State κ V → List (Ev κ V) → Except PyErr (State κ V)
  | s, [] => .ok s
  | s, e :: es => match step cfg s e with
    | .error x => .error x
    | .ok s' => run cfg s' es

/-! ## Interleaved with a notification -/

/-- The loop of trainer.py:86-88 over the values of a dict: the entry to come next, the number of entries when the loop began. -/
structure Loop (κ V : Type) where
  kw : Kw κ V
  pos : Nat
  size : Nat

/-- The state of both threads: `loop` is the loop of the training thread if it is inside `on_batch_complete`. -/
structure Both (κ V : Type) where
  s : State κ V
  loop : Option (Loop κ V)

/-- A step of the training thread (`begin`, `next`) or of the server thread (`opened`, `closed`, `broken`). -/
inductive Act (κ V : Type) where
  | begin (kw : Kw κ V)
  | next
  | opened (c : Nat)
  | broken (c : Nat)
  | closed (c : Nat)

/-- One step.  `next` is one turn of the `for` loop: the dict iterator first compares the number of entries with what it was (RuntimeError: dictionary changed
size during iteration), then gives the next entry, or ends.  Simplification: entries are counted by their place in the list; CPython leaves a gap
where an entry was removed, which matters only if a removal is made up for by an addition within one notification. -/
def act (cfg : Cfg κ) (b : Both κ V) : Act κ V → Except PyErr (Both κ V)
  | .begin kw => match b.loop with
    | some _ => .ok b
    | none => .ok ⟨b.s, some ⟨kw, 0, b.s.cbs.length⟩⟩
  | .next => match b.loop with
    | none => .ok b
    | some l =>
      if b.s.cbs.length ≠ l.size then .error .runtimeError
      else match b.s.cbs[l.pos]? with
        | none => .ok ⟨b.s, none⟩
        | some c => match call cfg l.kw b.s c with
          | .error e => .error e
          | .ok s' => .ok ⟨s', some ⟨l.kw, l.pos + 1, l.size⟩⟩
  | .opened c => .ok ⟨openPage c b.s, b.loop⟩
  | .broken c => .ok ⟨losePage c b.s, b.loop⟩
  | .closed c => .ok ⟨closePage c b.s, b.loop⟩

/-- A schedule. -/
def acts (cfg : Cfg κ) : Both κ V → List (Act κ V) → Except PyErr (Both κ V)
  | b, [] => .ok b
  | b, a :: as => match act cfg b a with
    | .error e => .error e
    | .ok b' => acts cfg b' as

/-! ## The server thread -/

/-- baseapp.py:261-265 `_start`: where the server thread is. -/
inductive Server where
  | created      -- the thread was started
  | made         -- the application was made
  | listening    -- `self.server = app.listen(port)` is done
  | looping      -- the event loop runs
  | finished     -- the event loop was stopped, or `listen` raised
  deriving DecidableEq, Repr

/-- baseapp.py:245-259: where the main thread is within `with app.start_in_thread(port): body`. -/
inductive Main where
  | body
  | asked        -- `ioloop.add_callback(ioloop.stop)` is done
  | stopped      -- `self.server.stop()` is done
  | left         -- `self.thread.join()` returned
  | raised (e : PyErr)
  deriving DecidableEq, Repr

/-- Both threads; `server` is whether `self.server` is set, `open_` whether it accepts connections, `stop` whether the loop was asked to stop. -/
structure App where
  server : Bool
  accepting : Bool
  stop : Bool
  thread : Server
  main : Main
  deriving DecidableEq, Repr

/-- baseapp.py:79-80, 245-250 `start_in_thread`. -/
def App.start : App := ⟨false, false, false, .created, .body⟩

/-- baseapp.py:261-265, one step of the server thread; `free` is whether the port can be bound. -/
def serverStep (free : Bool) (a : App) : App :=
  match a.thread with
  | .created => { a with thread := .made }
  | .made => if free then { a with server := true, accepting := true, thread := .listening } else { a with thread := .finished }
  | .listening => { a with thread := .looping }
  | .looping => if a.stop then { a with thread := .finished } else a
  | .finished => a

/-- baseapp.py:255-259 `__exit__`, one step of the main thread (the body is over): `self.server` is None until the server thread has set it; `join` waits. -/
def mainStep (a : App) : App :=
  match a.main with
  | .body => { a with stop := true, main := .asked }
  | .asked => if a.server then { a with accepting := false, main := .stopped } else { a with main := .raised .attributeError }
  | .stopped => if a.thread = .finished then { a with main := .left } else a
  | .left => a
  | .raised _ => a

/-- A schedule of the two threads: `true` is a step of the main thread. -/
def threads (free : Bool) : App → List Bool → App
  | a, [] => a
  | a, true :: l => threads free (mainStep a) l
  | a, false :: l => threads free (serverStep free a) l

end Zounds.Monitor
