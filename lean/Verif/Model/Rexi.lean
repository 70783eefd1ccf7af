import Mathlib.Analysis.SpecialFunctions.Exp
import Mathlib.Analysis.Complex.Exponential

set_option autoImplicit false

/-!
# REXI: rational approximation of exponential integrators

Model of `gusto/rexi/rexi_coefficients.py` and of the distribution and summation in `gusto/rexi/rexi.py`.
Complex numbers instead of `complex128`; arrays are lists or functions on the natural numbers.
-/

namespace Gusto.Rexi
open Complex

/-- `b_coefficients`, rexi_coefficients.py:96-102: entry `m` (counted from 0) is for the index `m - M`. -/
noncomputable def bCoeff (h : ℝ) (M m : ℕ) : ℂ :=
  exp ((h * h : ℝ) : ℂ) * exp (-I * (((m : ℤ) - (M : ℤ) : ℤ) : ℂ) * (h : ℂ))

/-- The arrays `alpha`, `beta_re`, `beta_im` (rexi_coefficients.py 105-192). -/
structure Arrays where
  alpha : ℕ → ℂ
  betaRe : ℕ → ℂ
  betaIm : ℕ → ℂ

/-- Body of the double loop, rexi_coefficients.py:145-150, with `l` and `m` counted from 0: `n + N = l + m`. -/
noncomputable def loopBody (h mu : ℝ) (L M : ℕ) (a : ℕ → ℂ) (s : Arrays) (l m : ℕ) : Arrays :=
  let n : ℤ := ((l + m : ℕ) : ℤ) - ((M + L : ℕ) : ℤ)
  let b := bCoeff h M m
  { alpha := Function.update s.alpha (l + m) ((h : ℂ) * ((mu : ℂ) + I * (n : ℂ)))
    betaRe := Function.update s.betaRe (l + m) (s.betaRe (l + m) + (b.re : ℂ) * (h : ℂ) * a l)
    betaIm := Function.update s.betaIm (l + m) (s.betaIm (l + m) + (b.im : ℂ) * (h : ℂ) * a l) }

/-- The double loop, rexi_coefficients.py:137-150. -/
noncomputable def arrays (h mu : ℝ) (L M : ℕ) (a : ℕ → ℂ) : Arrays :=
  (List.range (2 * L + 1)).foldl (fun s l =>
    (List.range (2 * M + 1)).foldl (fun s m => loopBody h mu L M a s l m) s)
    { alpha := fun _ => 0, betaRe := fun _ => 0, betaIm := fun _ => 0 }

/-- The array as a list (numpy; rexi_coefficients.py 105-192). -/
def toList (N : ℕ) (f : ℕ → ℂ) : List ℂ := (List.range (2 * N + 1)).map f

/-- Element-wise arithmetic on arrays (numpy; rexi_coefficients.py 105-192). -/
noncomputable def addArr (x y : List ℂ) : List ℂ := List.zipWith (· + ·) x y

/-- `RexiCoefficients`, rexi_coefficients.py:105-193, returning `(alpha, beta, beta2)`. -/
noncomputable def coefficients (h mu : ℝ) (L M : ℕ) (a : ℕ → ℂ) (reduceToHalf : Bool) :
    List ℂ × List ℂ × List ℂ :=
  let N := M + L
  let s := arrays h mu L M a
  let alpha := toList N s.alpha
  if reduceToHalf then
    let halve := fun f : ℕ → ℂ => Function.update f N (f N / 2)
    let re := toList N (halve s.betaRe)
    let im := toList N (halve s.betaIm)
    let cre := toList N (halve fun k => star (s.betaRe k))
    let cim := toList N (halve fun k => star (s.betaIm k))
    let up := fun x : List ℂ => x.drop N
    let down := fun x : List ℂ => (x.take (N + 1)).reverse
    let beta := (addArr (up re) ((up im).map (I * ·))
      ++ addArr ((down cre).map (-·)) ((down cim).map fun c => -(I * c))).map (· / 2)
    let beta2 := (addArr (down re) ((down im).map (I * ·))
      ++ addArr ((up cre).map (-·)) ((up cim).map fun c => -(I * c))).map (· / 2)
    (up alpha ++ (up alpha).map (-·), beta, beta2)
  else
    let re := toList N s.betaRe
    let im := toList N s.betaIm
    let cre := toList N fun k => star (s.betaRe k)
    let cim := toList N fun k => star (s.betaIm k)
    let beta := (addArr re (im.map (I * ·))
      ++ addArr (cre.reverse.map (-·)) (cim.reverse.map fun c => -(I * c))).map (· / 2)
    (alpha ++ alpha.map (-·), beta, List.replicate beta.length 0)

/-- The given half of the coefficients of Caliari et al. extended by conjugation,
rexi_coefficients.py:85-90. -/
noncomputable def caliariExtend (L : ℕ) (a : List ℂ) : List ℂ :=
  ((a.reverse ++ a.drop 1).zipIdx).map fun p => if p.2 < L then star p.1 else p.1

/-- `mu` of Caliari et al., rexi_coefficients.py:56. -/
noncomputable def caliariMu : ℝ := -5.133333333333333

/-- The given half of `a` of Caliari et al., rexi_coefficients.py:58-84, as pairs of real and imaginary
parts. -/
noncomputable def caliariA : List (ℝ × ℝ) := [
  (-6.520430828919864e1, 0),
  (4.261818064131437e1, 2.761406741120911e1),
  (-9.801650304425239, -2.189295463610722e1),
  (-1.054225194693395, 6.791786454153551),
  (7.950505668209775e-1, -8.904997258367445e-1),
  (-1.218558380859130e-1, 3.321241563407446e-2),
  (7.365401806949337e-3, 2.212802103193251e-3),
  (-2.801087265991056e-4, -5.566945197754387e-4),
  (1.254835436432561e-4, -2.467200513365371e-4),
  (2.295472292491263e-4, -8.494118951459107e-5),
  (1.858484460459430e-4, 9.242889460185034e-5),
  (4.068056518449676e-5, 1.653479957565515e-4),
  (-8.341508001647741e-5, 1.045331460447588e-4),
  (-9.970528169841103e-5, -5.856228484297677e-6),
  (-3.499639858693093e-5, -6.129059473910835e-5),
  (2.295021920298455e-5, -4.099832469456381e-5),
  (2.931048772724314e-5, 1.708815129697846e-7),
  (7.502088478301169e-6, 1.525082051744077e-5),
  (-5.815291167450100e-6, 6.919604247338349e-6),
  (-4.069948458364005e-6, -1.440010113050771e-6),
  (7.932524475429588e-8, -1.794169428574330e-6),
  (6.120984882186265e-7, -1.131894636585849e-7),
  (5.531365159161319e-8, 1.585749903175946e-7),
  (-2.867805871375946e-8, 1.239499740327838e-8),
  (-1.143081277095316e-9, -2.763239274253499e-9)]

/-- The coefficients of Caliari et al. after the extension, rexi_coefficients.py:88-90. -/
noncomputable def caliariCoeff (l : ℕ) : ℂ :=
  (caliariExtend 24 (caliariA.map fun p => (⟨p.1, p.2⟩ : ℂ))).getD l 0

/-- `mu` of Haut et al., rexi_coefficients.py:21. -/
noncomputable def hautMu : ℝ := -4.315321510875024

/-- The coefficients `a` of Haut et al., rexi_coefficients.py:24-48, as pairs of real and imaginary parts. -/
noncomputable def hautA : List (ℝ × ℝ) := [
  (-1.0845749544592896e-7, 2.77075431662228e-8),
  (1.858753344202957e-8, -9.105375434750162e-7),
  (3.6743713227243024e-6, 7.073284346322969e-7),
  (-2.7990058083347696e-6, 0.0000112564827639346),
  (0.000014918577548849352, -0.0000316278486761932),
  (-0.0010751767283285608, -0.00047282220513073084),
  (0.003816465653840016, 0.017839810396560574),
  (0.12124105653274578, -0.12327042473830248),
  (-0.9774980792734348, -0.1877130220537587),
  (1.3432866123333178, 3.2034715228495942),
  (4.072408546157305, -6.123755543580666),
  (-9.442699917778205, 0),
  (4.072408620272648, 6.123755841848161),
  (1.3432860877712938, -3.2034712658530275),
  (-0.9774985292598916, 0.18771238018072134),
  (0.1212417070363373, 0.12326987628935386),
  (0.0038169724770333343, -0.017839242222443888),
  (-0.0010756025812659208, 0.0004731874917343858),
  (0.000014713754789095218, 0.000031358475831136815),
  (-2.659323898804944e-6, -0.000011341571201752273),
  (3.6970377676364553e-6, -6.517457477594937e-7),
  (3.883933649142257e-9, 9.128496023863376e-7),
  (-1.0816457995911385e-7, -2.954309729192276e-8)]

/-! ### The solver -/

/-- The share of a rank, rexi.py:75-92: `(N, idx)`; `none` is a run without ensemble. -/
def share (nsolvers : ℕ) : Option (ℕ × ℕ) → ℕ × ℕ
  | none => (nsolvers, 0)
  | some (rank, neprocs) =>
    let m := nsolvers / neprocs
    let p := nsolvers - m * neprocs
    if rank < p then (m + 1, rank * (m + 1)) else (m, rank * m + p)

variable {V : Type*} [AddCommGroup V] [Module ℝ V]

/-- The loop of `solve`, rexi.py:206-226: `solver alpha` is the solution (real part, imaginary part) of the
proxied system for the right-hand side and timestep of the call. -/
noncomputable def solveLocal (alpha beta : List ℂ) (solver : ℂ → V × V) (sh : ℕ × ℕ) : V :=
  (List.range sh.1).foldl (fun x i =>
    let j := sh.2 + i
    let w := solver (alpha.getD j 0)
    let x := x + (beta.getD j 0).re • w.1
    x - (beta.getD j 0).im • w.2) 0

/-- `solve` on an ensemble of `neprocs` ranks, rexi.py:228-231: `allreduce` adds the local results. -/
noncomputable def solveParallel (alpha beta : List ℂ) (solver : ℂ → V × V) (neprocs : ℕ) : V :=
  ((List.range neprocs).map fun r => solveLocal alpha beta solver (share alpha.length (some (r, neprocs)))).sum

/-- `solve` without ensemble (rexi.py 191-231). -/
noncomputable def solveSerial (alpha beta : List ℂ) (solver : ℂ → V × V) : V :=
  solveLocal alpha beta solver (share alpha.length none)

/-- The choice of the implementation of complex spaces, rexi.py:49-54. -/
def chooseProxy (cpxType : String) : Except String String :=
  if cpxType = "mixed" then .ok "mixed" else if cpxType = "vector" then .ok "vector" else .error "ValueError"

/-- `RexiConstants.__init__`, rexi_coefficients.py:12-93: the number `L`, `mu` and the coefficients `a`. -/
noncomputable def chooseConstants (name : String) : Except String (ℕ × ℝ × List ℂ) :=
  if name = "haut" then .ok (11, hautMu, hautA.map fun p => (⟨p.1, p.2⟩ : ℂ))
  else if name = "caliari" then
    .ok (24, caliariMu, caliariExtend 24 (caliariA.map fun p => (⟨p.1, p.2⟩ : ℂ)))
  else .error "ValueError"

end Gusto.Rexi
