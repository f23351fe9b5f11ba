import Verif.Model.Base
/-!
# The log of flcards

The logger of /repo/fltk/cards_log.cxx: the main thread writes to the subscribers at once, the other threads put the message in a queue of at most fifty, and the loop callback shows the queue.
-/
namespace Cards

/-- `CL_DEBUG_LEVEL`, /repo/fltk/cards_log.h:16-22. -/
inductive GLogLevel where
  | info | warning | debug | error
deriving DecidableEq

/-- The text before the message, /repo/fltk/cards_log.cxx:60-82. -/
def logHead : GLogLevel → Str
  | .debug => "Debug : ".toList
  | .error => "Error : ".toList
  | .info => "Info : ".toList
  | .warning => "Warning : ".toList

/-- The line shown, /repo/fltk/cards_log.cxx:59-84. -/
def logLine (l : GLogLevel) (m : Str) : Str := logHead l ++ m ++ ['\n']

/-- `MAX_BUFFER`, /repo/src/define.h:150. -/
def maxBuffer : Nat := 50

/-- `m_ArrMessages`, `m_ArrSubscribers` and what was shown, subscriber and line, in the order of the calls, /repo/fltk/cards_log.h:28-31. -/
structure GLogSt where
  queue : List Str
  subs : List Nat
  shown : List (Nat × Str)
deriving DecidableEq

/-- The logger after `instance()`, /repo/fltk/cards_log.cxx:11-26. -/
def gLogStart : GLogSt := ⟨[], [], []⟩

/-- `sendToSubscribers`, /repo/fltk/cards_log.cxx:128-134. -/
def GLogSt.send (s : GLogSt) (t : Str) : GLogSt := { s with shown := s.shown ++ s.subs.map (fun n => (n, t)) }

/-- What happens to the logger. The mutex of /repo/fltk/cards_log.cxx:47-53, 91-97 makes the queue operations atomic; subscriptions are made by the main thread. -/
inductive GLogEv where
  | log (main : Bool) (l : GLogLevel) (m : Str)
  | loop
  | subscribe (n : Nat)
  | unSubscribe (n : Nat)
deriving DecidableEq

/-- The loop erasing the oldest messages, /repo/fltk/cards_log.cxx:93-96. -/
def dropOldest (q : List Str) : List Str := q.drop (q.length - maxBuffer)

/-- One call: `log` (/repo/fltk/cards_log.cxx:57-99), `loopCallback` (:42-55), `subscribe` (:104-110), `unSubscribe` (:115-122). -/
def GLogSt.step (s : GLogSt) : GLogEv → GLogSt
  | .log true l m => s.send (logLine l m)
  | .log false l m => { s with queue := dropOldest (s.queue ++ [logLine l m]) }
  | .loop => { s.queue.foldl GLogSt.send s with queue := [] }
  | .subscribe n => if n ∈ s.subs then s else { s with subs := s.subs ++ [n] }
  | .unSubscribe n => { s with subs := s.subs.erase n }

/-- The calls one after the other. -/
def GLogSt.run (s : GLogSt) (es : List GLogEv) : GLogSt := es.foldl GLogSt.step s

/-- What a subscriber has been shown. -/
def GLogSt.seenBy (s : GLogSt) (n : Nat) : List Str := (s.shown.filter (fun p => p.1 == n)).map (·.2)

end Cards
