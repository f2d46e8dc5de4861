/-!
# Model of internal/ui/ui.go, debugui.go, event_update.go: the life of the screen

A transition system of the goroutine of `main`, the goroutine which posts updates, the goroutine of the terminal application
(`views.Application`), the goroutines which `PostFunc` and `Quit` start to post one event each, and the terminal (keys).
The terminal library (tcell v1.4) is modelled as its source describes it: `Start` starts the event loop, which first calls
`SetView`, and then handles one event after the other until the event of `Quit`; `PostEventWait` blocks while the queue of
`cap` events (10 in tcell) is full; `PostFunc` and `Quit` post in a goroutine of their own; `Wait` waits for the end of the
event loop. What widgets draw, resizing, errors of the terminal, and keys which only redraw (`KeyCtrlL`), print the
goroutines (`KeyCtrlD`) or do nothing are one and the same here (`Key.other`).
-/

namespace Osm.Screen

/-- Keys, with the control key (ui.go:82-97). -/
inductive Key where
  | ctrlA | ctrlC | other
deriving DecidableEq, Repr

/-- Widgets are known by numbers. -/
abbrev Widget := Nat

/-- Events of the application: update (event_update.go), `PostFunc` of `ReplaceWidgets`, `Quit`, keys. -/
inductive Event where
  | update
  | replace (ws : List Widget)
  | quit
  | key (k : Key)
deriving DecidableEq, Repr

/-- A cell of a `views.BoxLayout`: the widget and its share (0 or 1) of the room left. -/
structure Cell where
  widget : Widget
  fill : Nat
deriving DecidableEq, Repr

/-- `BoxLayout.RemoveWidget` of tcell: it looks at the cells in order, and after removing one skips the next. -/
def RemoveWidget (w : Widget) : List Cell → List Cell
  | [] => []
  | [c] => if c.widget = w then [] else [c]
  | c :: d :: cs => if c.widget = w then d :: RemoveWidget w cs else c :: RemoveWidget w (d :: cs)

/-- internal/ui/ui.go:108-114: the cells added for the new widgets. -/
def addAll : List Widget → List Cell
  | [] => []
  | [w] => [⟨w, 1⟩]
  | w :: v :: ws => ⟨w, 0⟩ :: addAll (v :: ws)

/-- internal/ui/ui.go:103-116: the function posted by `ReplaceWidgets`. -/
def replaceWidgets (cells : List Cell) (ws : List Widget) : List Cell :=
  (cells.map (·.widget)).foldl (fun cs w => RemoveWidget w cs) cells ++ addAll ws

/-- What a command does with the screen: it replaces the widgets, or works on (`ProcessFileAsync`, `Wait`). -/
inductive Act where
  | replace (ws : List Widget)
  | work
deriving DecidableEq, Repr

/-- Where the goroutine of `main` is: before `app.Start` (ui.go:47), at `<-u.appReady` (ui.go:51), between `NewUI` and
`Stop`, at `u.wg.Wait()` (ui.go:120), at `u.app.Wait()` (ui.go:122), after `Stop`. -/
inductive Main where
  | start | awaitReady | run (todo : List Act) | awaitTicker | awaitApp | done
deriving DecidableEq, Repr

/-- The goroutine of the application. -/
inductive App where
  | absent | booting | polling | ended
deriving DecidableEq, Repr

/-- The goroutine of ui.go:54-66. -/
inductive Ticker where
  | absent | starting | waiting | posting | ended
deriving DecidableEq, Repr

structure St where
  main : Main
  app : App
  ticker : Ticker
  /-- `appReady` is closed. -/
  ready : Bool
  /-- `shutdown` is closed. -/
  shutdown : Bool
  /-- The context of the command is cancelled. -/
  cancelled : Bool
  /-- Some goroutine panicked: the program is at its end. -/
  crashed : Bool
  /-- Events in the queue. -/
  queue : List Event
  /-- Events of goroutines which wait to post them. -/
  posters : List Event
  /-- Cells of the layout. -/
  cells : List Cell
  /-- Events handled so far, the latest first. -/
  handled : List Event
deriving DecidableEq, Repr

/-- `interval`: of the option `--refresh`; not 0 (for which `NewUI` returns a `debugUI`, that does nothing). -/
structure Cfg where
  cap : Nat
  interval : Int
  todo : List Act

def St.init : St :=
  ⟨.start, .absent, .absent, false, false, false, false, [], [], [], []⟩

/-- internal/ui/ui.go:79-101 and the loop of `views.Application`: an event is handled. -/
def handle (s : St) (e : Event) : St :=
  let s := { s with handled := e :: s.handled }
  match e with
  | .update => s
  | .replace ws => { s with cells := replaceWidgets s.cells ws }
  | .quit => { s with app := .ended }
  | .key .ctrlA => { s with crashed := true }
  | .key .ctrlC => { s with cancelled := true }
  | .key .other => s

/-- Kinds of steps: of the program, a tick of the clock, a key pressed. -/
inductive Kind where
  | program | tick | key (k : Key)
deriving DecidableEq, Repr

/-- One step. Nothing happens after a panic. -/
inductive Step (c : Cfg) : Kind → St → St → Prop where
  /-- ui.go:47-51 -/
  | start {s} : s.crashed = false → s.main = .start →
      Step c .program s { s with main := .awaitReady, app := .booting }
  /-- `views.Application.run` calls `SetView` (ui.go:71-77), which closes `appReady`. -/
  | boot {s} : s.crashed = false → s.app = .booting →
      Step c .program s { s with app := .polling, ready := true }
  /-- ui.go:53-56 -/
  | ready {s} : s.crashed = false → s.main = .awaitReady → s.ready = true →
      Step c .program s { s with main := .run c.todo, ticker := .starting }
  /-- ui.go:55-57: `time.NewTicker` panics unless the interval is positive. -/
  | ticker {s} : s.crashed = false → s.ticker = .starting →
      Step c .program s (if c.interval ≤ 0 then { s with crashed := true } else { s with ticker := .waiting })
  /-- ui.go:58 -/
  | tick {s} : s.crashed = false → s.ticker = .waiting → Step c .tick s { s with ticker := .posting }
  /-- ui.go:59 -/
  | posted {s} : s.crashed = false → s.ticker = .posting → s.queue.length < c.cap →
      Step c .program s { s with ticker := .waiting, queue := s.queue ++ [.update] }
  /-- ui.go:60-63 -/
  | tickerEnd {s} : s.crashed = false → s.ticker = .waiting → s.shutdown = true →
      Step c .program s { s with ticker := .ended }
  /-- ui.go:103-116 -/
  | replace {s ws todo} : s.crashed = false → s.main = .run (.replace ws :: todo) →
      Step c .program s { s with main := .run todo, posters := s.posters ++ [.replace ws] }
  | work {s todo} : s.crashed = false → s.main = .run (.work :: todo) →
      Step c .program s { s with main := .run todo }
  /-- ui.go:118-119 -/
  | stop {s} : s.crashed = false → s.main = .run [] →
      Step c .program s { s with main := .awaitTicker, shutdown := true }
  /-- ui.go:120-121 -/
  | quit {s} : s.crashed = false → s.main = .awaitTicker → s.ticker = .ended →
      Step c .program s { s with main := .awaitApp, posters := s.posters ++ [.quit] }
  /-- ui.go:122-125 -/
  | stopped {s} : s.crashed = false → s.main = .awaitApp → s.app = .ended →
      Step c .program s { s with main := .done }
  /-- A goroutine started by `PostFunc` or `Quit` posts its event; any of them. -/
  | post {s e a b} : s.crashed = false → s.posters = a ++ e :: b → s.queue.length < c.cap →
      Step c .program s { s with posters := a ++ b, queue := s.queue ++ [e] }
  /-- `PollEvent` and the handling of the event. -/
  | poll {s e q} : s.crashed = false → s.app = .polling → s.queue = e :: q →
      Step c .program s (handle { s with queue := q } e)
  /-- A key is pressed; the terminal posts it. -/
  | key {s} (k : Key) : s.crashed = false → s.queue.length < c.cap →
      Step c (.key k) s { s with queue := s.queue ++ [.key k] }

/-- Runs, with the kinds of their steps. -/
inductive Run (c : Cfg) : List Kind → St → St → Prop where
  | nil {s} : Run c [] s s
  | snoc {ks k s t u} : Run c ks s t → Step c k t u → Run c (ks ++ [k]) s u

def Reachable (c : Cfg) (s : St) : Prop := ∃ ks, Run c ks St.init s

end Osm.Screen
