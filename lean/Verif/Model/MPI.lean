import Mathlib.Data.List.Basic
import Mathlib.Logic.Function.Basic

set_option autoImplicit false

/-!
# Message passing

Semantics of the blocking point-to-point MPI calls used by gusto through Firedrake's `Ensemble`
(`comm.send`, `comm.recv` in parallel_dc.py:125-126, 130-131, 166-167, 171-172, 207-208, 219, 221).

A rank runs a list of operations.  The messages in transit from one rank to another form a list;
`recv` with a tag takes the first message with that tag (MPI: messages do not overtake).
A blocking standard-mode `send` may complete by copying the message to a buffer (`eager`) if the
MPI library chooses so, or together with the matching `recv` (`rendezvous`).  MPI guarantees progress
only for local work, for the receipt of a message in transit and for a rendezvous; a program that
relies on buffering may deadlock.

Simplification: collective operations (reduce, allreduce, bcast) are modelled as point-to-point
messages from or to the root.
-/

namespace Gusto.MPI

/-- One operation in the program of a rank with local state `σ` and messages `V`
(MPI semantics, not gusto code; used by parallel_dc.py 101-404). -/
inductive Op (σ V : Type*) where
  | loc (f : σ → σ)
  | send (dst tag : ℕ) (val : σ → V)
  | recv (src tag : ℕ) (upd : V → σ → σ)

/-- Remaining program and local state of each rank, and messages in transit
(MPI semantics, not gusto code; used by parallel_dc.py 101-404). -/
structure Config (σ V : Type*) where
  prog : ℕ → List (Op σ V)
  st : ℕ → σ
  chan : ℕ → ℕ → List (ℕ × V)

variable {σ V : Type*}

/-- Put a new list of messages on the channel from `s` to `d`
(MPI semantics, not gusto code; used by parallel_dc.py 101-404). -/
def setChan (c : ℕ → ℕ → List (ℕ × V)) (s d : ℕ) (l : List (ℕ × V)) : ℕ → ℕ → List (ℕ × V) :=
  Function.update c s (Function.update (c s) d l)

/-- The steps MPI guarantees to happen if they are possible
(MPI semantics, not gusto code; used by parallel_dc.py 101-404). -/
inductive Guaranteed : Config σ V → Config σ V → Prop
  | loc (c : Config σ V) (r : ℕ) (f : σ → σ) (p : List (Op σ V)) (h : c.prog r = Op.loc f :: p) :
      Guaranteed c ⟨Function.update c.prog r p, Function.update c.st r (f (c.st r)), c.chan⟩
  | deliver (c : Config σ V) (r s t : ℕ) (u : V → σ → σ) (p : List (Op σ V))
      (l1 l2 : List (ℕ × V)) (v : V)
      (h : c.prog r = Op.recv s t u :: p) (hc : c.chan s r = l1 ++ (t, v) :: l2)
      (hl : ∀ m ∈ l1, m.1 ≠ t) :
      Guaranteed c ⟨Function.update c.prog r p, Function.update c.st r (u v (c.st r)),
        setChan c.chan s r (l1 ++ l2)⟩
  | rendezvous (c : Config σ V) (s r t : ℕ) (val : σ → V) (u : V → σ → σ) (ps pr : List (Op σ V))
      (hsr : s ≠ r) (hs : c.prog s = Op.send r t val :: ps) (hr : c.prog r = Op.recv s t u :: pr)
      (hl : ∀ m ∈ c.chan s r, m.1 ≠ t) :
      Guaranteed c ⟨Function.update (Function.update c.prog s ps) r pr,
        Function.update c.st r (u (val (c.st s)) (c.st r)), c.chan⟩

/-- All possible steps: also a `send` that is buffered
(MPI semantics, not gusto code; used by parallel_dc.py 101-404). -/
inductive Step : Config σ V → Config σ V → Prop
  | sure (c c' : Config σ V) (h : Guaranteed c c') : Step c c'
  | eager (c : Config σ V) (s d t : ℕ) (val : σ → V) (p : List (Op σ V))
      (h : c.prog s = Op.send d t val :: p) :
      Step c ⟨Function.update c.prog s p, c.st,
        setChan c.chan s d (c.chan s d ++ [(t, val (c.st s))])⟩

/-- `n` steps lead from one configuration to the other
(MPI semantics, not gusto code; used by parallel_dc.py 101-404). -/
inductive Steps : ℕ → Config σ V → Config σ V → Prop
  | refl (c : Config σ V) : Steps 0 c c
  | tail {n : ℕ} {a b c : Config σ V} (h : Steps n a b) (h' : Step b c) : Steps (n + 1) a c

/-- All ranks have finished (MPI semantics, not gusto code; used by parallel_dc.py 101-404). -/
def Done (c : Config σ V) : Prop := ∀ r, c.prog r = []

/-- Every rank at the start of its program, nothing in transit
(MPI semantics, not gusto code; used by parallel_dc.py 101-404). -/
def initial (prog : ℕ → List (Op σ V)) (st : ℕ → σ) : Config σ V := ⟨prog, st, fun _ _ => []⟩

/-- `Ensemble.reduce(x, y, root)` (used at parallel_dc.py:285) on rank `r` of `M`: the root sets the
result to its own contribution `get`, then receives and accumulates the contributions of the
others; the others send theirs.  (The result is meaningful on the root only; here it is left
unchanged elsewhere.) -/
def reduceProg (M root : ℕ) (get : σ → V) (set acc : V → σ → σ) (r : ℕ) : List (Op σ V) :=
  if r = root then
    Op.loc (fun p => set (get p) p) ::
      (List.range M).flatMap fun i => if i = root then [] else [Op.recv i 0 acc]
  else [Op.send root 0 get]

/-- `Ensemble.bcast(x, root)` (parallel_dc.py:389, 399, 404) on rank `r` of `M`. -/
def bcastProg (M root : ℕ) (get : σ → V) (set : V → σ → σ) (r : ℕ) : List (Op σ V) :=
  if r = root then (List.range M).flatMap fun i => if i = root then [] else [Op.send i 0 get]
  else [Op.recv root 0 set]

end Gusto.MPI
