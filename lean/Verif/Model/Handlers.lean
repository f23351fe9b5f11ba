import Verif.Model.Base
/-!
# The event handlers of flcards

`m_arrEventHandler`, /repo/fltk/cards_wrapper.cxx:46-62, 308-345: a vector of pointers the worker threads go through while the main thread adds and removes handlers, without a lock.
-/
namespace Cards

/-- One `for (auto* it : m_arrEventHandler)`: the buffer it began in, the place it has reached, the end it computed at the beginning; and, for the statements, the handlers called so far and those subscribed when it began. -/
structure Iter where
  gen : Nat
  idx : Nat
  stop : Nat
  called : List Nat
  atStart : List Nat
deriving DecidableEq

/-- The vector (`mem` is its buffer with the unused places, `size` of them in use, `gen` tells the buffers apart), the handlers that exist, the loops under way. `bad`: freed memory or a deleted handler was used. -/
structure Handlers where
  mem : List Nat
  size : Nat
  gen : Nat
  alive : List Nat
  iters : List Iter
  bad : Bool
deriving DecidableEq

/-- The subscribed handlers. -/
def Handlers.items (s : Handlers) : List Nat := s.mem.take s.size

/-- What happens: a handler is created and subscribes, one unsubscribes and is deleted, a loop begins, a loop goes one handler on. -/
inductive HEv where
  | subscribe (n : Nat)
  | destroy (n : Nat)
  | start
  | call (i : Nat)
deriving DecidableEq

/-- `push_back`, /repo/fltk/cards_wrapper.cxx:47-51: in place if there is room, otherwise a new buffer of twice the size and the old one is freed (libstdc++). -/
def Handlers.pushBack (s : Handlers) (n : Nat) : Handlers :=
  if s.size < s.mem.length then { s with mem := s.mem.set s.size n, size := s.size + 1 }
  else { s with mem := s.mem.take s.size ++ n :: List.replicate (s.size - 1) 0, size := s.size + 1, gen := s.gen + 1 }

/-- `find` and `erase`, /repo/fltk/cards_wrapper.cxx:54-62: the following ones move one place down, the last place keeps what it had. -/
def Handlers.eraseOne (s : Handlers) (n : Nat) : Handlers :=
  if n ∈ s.items then
    { s with mem := s.items.erase n ++ s.mem.drop (s.size - 1), size := s.size - 1 }
  else s

/-- One turn of a loop of /repo/fltk/cards_wrapper.cxx:312-315, 321-324, 331-334, 340-343. -/
def Handlers.callOne (s : Handlers) (i : Nat) : Handlers :=
  match s.iters[i]? with
  | none => s
  | some it =>
    if it.idx < it.stop then
      if it.gen = s.gen then
        match s.mem[it.idx]? with
        | some h => { s with iters := s.iters.set i { it with idx := it.idx + 1, called := it.called ++ [h] }, bad := s.bad || !s.alive.contains h }
        | none => { s with bad := true }
      else { s with bad := true }
    else s

/-- One step: constructors and destructors of /repo/fltk/progressbox.cxx:11-54, /repo/fltk/mainWindow.cxx:55-66, /repo/fltk/table_base.cxx:54, and the loops. -/
def Handlers.step (s : Handlers) : HEv → Handlers
  | .subscribe n => { s.pushBack n with alive := n :: s.alive }
  | .destroy n => { s.eraseOne n with alive := s.alive.filter (· != n) }
  | .start => { s with iters := s.iters ++ [⟨s.gen, 0, s.size, [], s.items⟩] }
  | .call i => s.callOne i

/-- The steps one after the other. -/
def Handlers.run (s : Handlers) (es : List HEv) : Handlers := es.foldl Handlers.step s

/-- The wrapper at its creation. -/
def handlers0 : Handlers := ⟨[], 0, 0, [], [], false⟩

/-- flcards started: the table (1) and the window (2), /repo/fltk/mainWindow.cxx:35-56. -/
def handlersUp : Handlers := handlers0.run [.subscribe 1, .subscribe 2]

end Cards
