import Verif.Spec.IntertwineSchemes
import Verif.Spec.Symmetry
import Mathlib.LinearAlgebra.Prod

set_option autoImplicit false

/-!
# Superposition

The combination `a x + b y` of two fields; equations, physics and solvers that respect it.  For linear equations every
`a`, `b` is allowed; for equations with a fixed source (affine ones) those with `a + b = 1`.
-/

namespace Gusto.Spec
open Gusto
variable {K X D : Type*} [Field K] [AddCommGroup X] [Module K X] [AddCommGroup D] [Module K D]

/-- `f` respects the combination: `f (a x + b y) = a f(x) + b f(y)`. -/
def Superposes {Y Z : Type*} [AddCommGroup Y] [Module K Y] [AddCommGroup Z] [Module K Z] (a b : K) (f : Y → Z) : Prop :=
  ∀ x y, f (a • x + b • y) = a • f x + b • f y

/-- Every term of the equation respects the combination.  (The subject of a term is a placeholder that the schemes
replace; the zero Function qualifies.) -/
structure SuperposesTerm (a b : K) (t : Term X D) : Prop where
  subj : t.subj = a • t.subj + b • t.subj
  op : Superposes a b t.op
  attached : ∀ f ∈ t.attached, Superposes a b f.2

/-- The equation respects the combination. -/
def SuperposesForm (a b : K) (R : LForm X D) : Prop := ∀ t ∈ R, SuperposesTerm a b t

/-- The combination of two states of a Runge-Kutta scheme, Function by Function. -/
def combRK (a b : K) (s t : RKState X) : RKState X where
  x0 := a • s.x0 + b • t.x0
  x1 := a • s.x1 + b • t.x1
  xOut := a • s.xOut + b • t.xOut
  src := fun j => a • s.src j + b • t.src j
  k := fun j => a • s.k j + b • t.k j
  field := fun j => a • s.field j + b • t.field j
  source := fun j => a • s.source j + b • t.source j
  fieldLhs := fun j => a • s.fieldLhs j + b • t.fieldLhs j
  fieldRhs := a • s.fieldRhs + b • t.fieldRhs

/-- The same for IMEX schemes. -/
def combIMEX (a b : K) (s t : IMEX.State X) : IMEX.State X where
  xOut := a • s.xOut + b • t.xOut
  xs := fun j => a • s.xs j + b • t.xs j
  source := fun j => a • s.source j + b • t.source j

/-- The same for SDC (matrices and timesteps are those of the first state). -/
def combSDC (a b : K) (s t : SDC.State K X) : SDC.State K X where
  U := fun j => a • s.U j + b • t.U j
  U1 := fun j => a • s.U1 j + b • t.U1 j
  f := fun j => a • s.f j + b • t.f j
  quad := fun j => a • s.quad j + b • t.quad j
  sU := fun j => a • s.sU j + b • t.sU j
  sU1 := fun j => a • s.sU1 j + b • t.sU1 j
  uDC := a • s.uDC + b • t.uDC
  uStart := a • s.uStart + b • t.uStart
  un := a • s.un + b • t.un
  q_ := a • s.q_ + b • t.q_
  quadFinal := a • s.quadFinal + b • t.quadFinal
  uFin := a • s.uFin + b • t.uFin
  uRhs := a • s.uRhs + b • t.uRhs
  uIn := a • s.uIn + b • t.uIn
  sIn := a • s.sIn + b • t.sIn
  baseDt := s.baseDt
  qdeltaImp := s.qdeltaImp
  solvers := s.solvers

/-- The same for RIDC. -/
def combRIDC (a b : K) (s t : RIDC.State K X) : RIDC.State K X where
  U := fun j => a • s.U j + b • t.U j
  U1 := fun j => a • s.U1 j + b • t.U1 j
  f := fun j => a • s.f j + b • t.f j
  sU := fun j => a • s.sU j + b • t.sU j
  sU1 := fun j => a • s.sU1 j + b • t.sU1 j
  uDC := a • s.uDC + b • t.uDC
  uStart := a • s.uStart + b • t.uStart
  un := a • s.un + b • t.un
  q_ := a • s.q_ + b • t.q_
  uRhs := a • s.uRhs + b • t.uRhs
  uIn := a • s.uIn + b • t.uIn
  sIn := a • s.sIn + b • t.sIn
  sU1m := a • s.sU1m + b • t.sU1m
  sUm := a • s.sUm + b • t.sUm
  ukmp1 := a • s.ukmp1 + b • t.ukmp1
  ukm := a • s.ukm + b • t.ukm
  ukp1m := a • s.ukp1m + b • t.ukp1m
  baseDt := s.baseDt

end Gusto.Spec
