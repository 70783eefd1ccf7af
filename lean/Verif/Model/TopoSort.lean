import Verif.Model.TimeLoop
import Mathlib.Logic.Function.Basic

set_option autoImplicit false

/-!
# `topo_sort` and `IO.setup_diagnostics` (gusto/core/io.py:934-977, 336-368)

A diagnostic field is identified with its name.  The dictionary `graph` is a pair of functions on
names; `list.remove` is `List.erase`.
-/

namespace Gusto
variable {N : Type*} [DecidableEq N]

namespace TopoSort
open TimeLoop

/-- The loop state of `topo_sort`: `graph` (inputs, outputs), `roots` (a stack, `pop()` takes the
last), `schedule` (core/io.py 934-977). -/
structure St (N : Type*) where
  ins : N → List N
  outs : N → List N
  roots : List N
  sched : List N

/-- io.py:951: `graph = dict((f.name, (list(deps), [])) …)`: of two equal names the last one
counts. -/
def insOf (fd : List (N × List N)) : N → List N :=
  fd.foldl (fun g e => Function.update g e.1 e.2) fun _ => []

/-- io.py:953-961, the part that fills the output dependencies. -/
def outsOf (fd : List (N × List N)) : N → List N :=
  fd.foldl (fun g e => e.2.foldl (fun g d => Function.update g d (g d ++ [e.1])) g) fun _ => []

/-- io.py:953-957, the initial roots. -/
def rootsOf (fd : List (N × List N)) : List N :=
  fd.foldl (fun r e => if e.2.length = 0 then r ++ [e.1] else r) []

/-- `graph[d]` raises KeyError for a name that is not a diagnostic (io.py:961). -/
def keysOk (fd : List (N × List N)) : Bool :=
  fd.all fun e => e.2.all fun d => d ∈ fd.map Prod.fst

/-- See core/io.py 934-955. -/
def init (fd : List (N × List N)) : St N :=
  { ins := insOf fd, outs := outsOf fd, roots := rootsOf fd, sched := [] }

/-- The body of `for m in output_deps` (io.py:968-974). -/
def relax (n : N) (s : St N) (m : N) : St N :=
  let ins := Function.update s.ins m ((s.ins m).erase n)
  let outs := Function.update s.outs n ((s.outs n).erase m)
  { ins, outs, sched := s.sched, roots := if (ins m).length = 0 then s.roots ++ [m] else s.roots }

/-- The body of `while roots` (io.py:964-974). -/
def step (s : St N) : St N :=
  match s.roots.getLast? with
  | none => s
  | some n =>
    (s.outs n).foldl (relax n) { s with roots := s.roots.dropLast, sched := s.sched ++ [n] }

/-- Outcomes of `topo_sort` (core/io.py 934-977). -/
inductive Result (N : Type*)
  | ok (schedule : List N)
  | keyError
  | cycleError

/-- `topo_sort`: `TopoSort fd r` says that it ends with the outcome `r` (io.py:934-977). -/
inductive Sorts (fd : List (N × List N)) : Result N → Prop
  | key : keysOk fd = false → Sorts fd .keyError
  | ok {n : ℕ} {s : St N} : keysOk fd = true →
      While (fun s : St N => s.roots ≠ []) step (init fd) n s →
      (∀ f ∈ fd.map Prod.fst, (s.ins f).length = 0) → Sorts fd (.ok s.sched)
  | cycle {n : ℕ} {s : St N} : keysOk fd = true →
      While (fun s : St N => s.roots ≠ []) step (init fd) n s →
      (∃ f ∈ fd.map Prod.fst, (s.ins f).length ≠ 0) → Sorts fd .cycleError

/-- `setup_diagnostics` (io.py:346-360): the dependencies handed to `topo_sort` are the required
fields that are not otherwise available.  `available` is `non_diagnostics`; the sorting of the
names is left out (`dedup` keeps one copy of each). -/
def fieldDeps (diags : List (N × List N)) (available : List N) : List (N × List N) :=
  diags.map fun d => (d.1, d.2.dedup.filter fun r => r ∉ available)

end TopoSort
end Gusto
