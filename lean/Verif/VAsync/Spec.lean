import Verif.VAsync.Model
/-!
# What the threads of `verify_async` should do
-/

namespace Fio.VAsync.Spec

open Fio.VAsync

/-- The units a thread has. -/
def own : Pc → List Nat
  | .busy l _ => l
  | _ => []

/-- The units all threads have. -/
def owned (s : St) : List Nat := s.ts.flatMap own

/-- The numbers of threads that have not ended. -/
def alive (s : St) : Nat := (s.ts.filter (fun t => t ≠ .ended)).length

/-- A thread that will look at the list without being woken: it is before its test, or has units and will then come to its test. -/
def awake : Pc → Bool
  | .top => true
  | .check => true
  | .busy _ _ => true
  | _ => false

/-- How many steps a thread can still take once it is told to end, but for taking the list. -/
def left : Pc → Nat
  | .top => 2
  | .check => 3
  | .wait => 4
  | .busy l _ => 2 + l.length
  | .ending => 1
  | .ended => 0

/-- How many steps all threads can still take. -/
def work (s : St) : Nat := s.list.length + (s.ts.map left).sum

/-- A thread took a step. -/
def moved (c : Cfg) (s : St) : Ev → Nat
  | .thread i => if step c s (.thread i) = s then 0 else 1
  | _ => 0

/-- Number of steps taken by threads. -/
def moves (c : Cfg) : St → List Ev → Nat
  | _, [] => 0
  | s, e :: es => moved c s e + moves c (step c s e) es

end Fio.VAsync.Spec
