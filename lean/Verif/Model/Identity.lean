import Verif.Spec.JsonValues
/-
The in-memory reader dsio/identity.go: a producer goroutine handing entries over an unbuffered
channel to a consumer, with a plain boolean `done` as the only other shared memory.

A transition system: each step is one atomic action of one of the two goroutines, or the rendezvous
of a send with a receive.  `done` is written without synchronisation, so a read of it may miss the
write; `stale = true` allows that, `stale = false` is sequentially consistent memory.
-/
set_option autoImplicit false
namespace Verif.Identity

/-- what the producer goroutine is about to do (identity.go:60-84) -/
inductive Prod where
  /-- in the loop with these entries left: blocked at the send of the first, or, with none left, about
  to set `done` -/
  | looping (rest : List Entry)
  /-- `done` is set, the goroutine is over; the channel is never closed -/
  | ended
deriving DecidableEq

/-- calls the consumer makes -/
inductive Call where
  | read
  | close
deriving DecidableEq

/-- where the consumer stands -/
inductive Cons where
  | idle
  /-- ReadEntry: before `if r.done` (41-44) -/
  | readCheck
  /-- ReadEntry: at `<-r.entries` (46) -/
  | readRecv
  /-- Close: before `if !r.done` (51) -/
  | closeCheck
  /-- Close: before the loop condition (53) -/
  | closeLoop
  /-- Close: at `<-r.entries` (54) -/
  | closeRecv
deriving DecidableEq

/-- what a call returned -/
inductive Ret where
  | entry (e : Entry)
  | eof
  | closed
deriving DecidableEq

structure St where
  prod : Prod
  cons : Cons
  /-- calls still to be made -/
  script : List Call
  /-- results of the calls made, oldest first -/
  rets : List Ret

/-- NewIdentityReader (12-24): slices are iterated in order, maps in any order; other values are
refused -/
inductive Iterates : Val → List Entry → Prop where
  | slice (l : List Val) : Iterates (.arr l) (Json.indexed 0 l)
  | map (m : List (Bytes × Val)) (es : List Entry) (h : es.Perm (Json.keyed m)) : Iterates (.obj m) es

def start (es : List Entry) (script : List Call) : St := { prod := .looping es, cons := .idle, script := script, rets := [] }

/-- the possible steps -/
inductive Step (stale : Bool) : St → St → Prop where
  /-- the loop is over: `r.done = true` (69, 81) -/
  | finish (c : Cons) (s : List Call) (r : List Ret) :
      Step stale ⟨.looping [], c, s, r⟩ ⟨.ended, c, s, r⟩
  | callRead (p : Prod) (s : List Call) (r : List Ret) :
      Step stale ⟨p, .idle, .read :: s, r⟩ ⟨p, .readCheck, s, r⟩
  | callClose (p : Prod) (s : List Call) (r : List Ret) :
      Step stale ⟨p, .idle, .close :: s, r⟩ ⟨p, .closeCheck, s, r⟩
  /-- ReadEntry sees `done` -/
  | readDone (s : List Call) (r : List Ret) :
      Step stale ⟨.ended, .readCheck, s, r⟩ ⟨.ended, .idle, s, r ++ [.eof]⟩
  /-- ReadEntry does not see `done` -/
  | readGo (p : Prod) (s : List Call) (r : List Ret) (h : p ≠ .ended ∨ stale = true) :
      Step stale ⟨p, .readCheck, s, r⟩ ⟨p, .readRecv, s, r⟩
  /-- rendezvous with ReadEntry -/
  | readTake (e : Entry) (es : List Entry) (s : List Call) (r : List Ret) :
      Step stale ⟨.looping (e :: es), .readRecv, s, r⟩ ⟨.looping es, .idle, s, r ++ [.entry e]⟩
  | closeDone (s : List Call) (r : List Ret) :
      Step stale ⟨.ended, .closeCheck, s, r⟩ ⟨.ended, .idle, s, r ++ [.closed]⟩
  | closeGo (p : Prod) (s : List Call) (r : List Ret) (h : p ≠ .ended ∨ stale = true) :
      Step stale ⟨p, .closeCheck, s, r⟩ ⟨p, .closeLoop, s, r⟩
  | loopDone (s : List Call) (r : List Ret) :
      Step stale ⟨.ended, .closeLoop, s, r⟩ ⟨.ended, .idle, s, r ++ [.closed]⟩
  | loopGo (p : Prod) (s : List Call) (r : List Ret) (h : p ≠ .ended ∨ stale = true) :
      Step stale ⟨p, .closeLoop, s, r⟩ ⟨p, .closeRecv, s, r⟩
  /-- rendezvous with Close: the entry is dropped -/
  | closeTake (e : Entry) (es : List Entry) (s : List Call) (r : List Ret) :
      Step stale ⟨.looping (e :: es), .closeRecv, s, r⟩ ⟨.looping es, .closeLoop, s, r⟩

/-- executions of `n` steps -/
inductive Steps (stale : Bool) : Nat → St → St → Prop where
  | refl (s : St) : Steps stale 0 s s
  | tail {n : Nat} {a b c : St} (h : Steps stale n a b) (k : Step stale b c) : Steps stale (n + 1) a c

/-- no goroutine can move although the consumer is inside a call -/
def Stuck (stale : Bool) (s : St) : Prop := s.cons ≠ .idle ∧ ∀ t, ¬ Step stale s t

end Verif.Identity
