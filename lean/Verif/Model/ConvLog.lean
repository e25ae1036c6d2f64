import Mathlib.Analysis.SpecialFunctions.Pow.Real
import Verif.Model.Py
/-!
# Convergence studies (demo/common.py, demo/test_demos.py)

Numbers are real; `none` stands for nan.  Objects given to `add` are of one type `I`; for those which are discrete functions
`h`, `dim` are `mesh().hmin()` and `function_space().dim()`.  Calls which change a log return it together with the exception, if there
is one, because the caller can go on with the log.
-/
namespace Verif.ConvLog
open Verif

/-- Division of Python floats.  (`get_error` returns them for the norms of demo/common.py:6-9; the division of the numpy numbers which `broken_norm`
    returns gives nan or inf instead of the exception.) -/
noncomputable def pyDiv (a b : ℝ) : Py ℝ := if b = 0 then .error .zeroDivision else .ok (a / b)

/-- `df.ln` of a float, the logarithm of `math`: zero and negative numbers are refused. -/
noncomputable def pyLn (x : ℝ) : Py ℝ := if x ≤ 0 then .error .valueError else .ok (Real.log x)

/-- The quotient of demo/common.py:83, from left to right. -/
noncomputable def quotient (e1 e0 h1 h0 : ℝ) : Py ℝ := do
  let q ← pyDiv e1 e0
  let a ← pyLn q
  let r ← pyDiv h1 h0
  let b ← pyLn r
  pyDiv a b

/-- `except ZeroDivisionError`, demo/common.py:82-85. -/
def caught : Py ℝ → Py (Option ℝ)
  | .ok r => .ok (some r)
  | .error .zeroDivision => .ok none
  | .error e => .error e

/-- The rate for the lists of errors and mesh sizes, demo/common.py:81-87. -/
noncomputable def rateNow (errors hs : List ℝ) : Py (Option ℝ) :=
  match errors.reverse, hs.reverse with
  | e1 :: e0 :: _, h1 :: h0 :: _ => caught (quotient e1 e0 h1 h0)
  | _ :: _ :: _, _ => .error .indexError
  | _, _ => .ok none

/-- `VarApproximationHistory`, demo/common.py:58-68, without names and formats. -/
structure AHist (I : Type) where
  getError : I → Py ℝ
  errors : List ℝ
  hs : List ℝ
  dims : List Nat
  rates : List (Option ℝ)

variable {I K : Type} [DecidableEq K] (h : I → ℝ) (dim : I → Nat)

/-- `VarApproximationHistory.append`, demo/common.py:70-88. -/
noncomputable def AHist.append (a : AHist I) (uh : I) : AHist I × Option PyErr :=
  match a.getError uh with
  | .error e => (a, some e)
  | .ok err =>
      let a := { a with errors := a.errors ++ [err], hs := a.hs ++ [h uh], dims := a.dims ++ [dim uh] }
      match rateNow a.errors a.hs with
      | .error e => (a, some e)
      | .ok r => ({ a with rates := a.rates ++ [r] }, none)

/-- `VarApproximationHistory.get_rate`, demo/common.py:98-105; `polyfit` is the slope found by `np.polyfit` with `deg=1`. -/
noncomputable def AHist.getRate (polyfit : List ℝ → List ℝ → ℝ) (a : AHist I) : Py (Option ℝ × Option ℝ) :=
  match a.rates.getLast? with
  | none => .error .indexError
  | some none => .ok (none, none)
  | some (some r) => .ok (some r, some (polyfit (a.hs.map Real.log) (a.errors.map Real.log)))

/-- `ConvergenceLog`, demo/common.py:108-125: the names in the given order, and the two dictionaries of histories. -/
structure Log (I K : Type) where
  names : List K
  values : List (K × List I)
  approx : List (K × AHist I)

/-- The constructor, demo/common.py:110-122; `none` is a variable whose values are recorded only. -/
def Log.init (vars : List (K × Option (I → Py ℝ))) : Log I K :=
  { names := vars.map Prod.fst
    values := vars.filterMap (fun v => match v.2 with | none => some (v.1, []) | some _ => none)
    approx := vars.filterMap (fun v => match v.2 with | none => none | some g => some (v.1, ⟨g, [], [], [], []⟩)) }

/-- The loop of demo/common.py:131-132 over the recorded values; `new` is a dictionary. -/
def addValues (new : K → Option I) : List (K × List I) → List (K × List I) × Option PyErr
  | [] => ([], none)
  | (k, l) :: rest =>
      match new k with
      | none => ((k, l) :: rest, some .keyError)
      | some x => ((k, l ++ [x]) :: (addValues new rest).1, (addValues new rest).2)

/-- The loop of demo/common.py:131-132 over the approximations. -/
noncomputable def addApprox (new : K → Option I) : List (K × AHist I) → List (K × AHist I) × Option PyErr
  | [] => ([], none)
  | (k, a) :: rest =>
      match new k with
      | none => ((k, a) :: rest, some .keyError)
      | some x =>
          match a.append h dim x with
          | (a, some e) => ((k, a) :: rest, some e)
          | (a, none) => ((k, a) :: (addApprox new rest).1, (addApprox new rest).2)

/-- `ConvergenceLog.add` of a dictionary, demo/common.py:127-132.  A `ChainMap` is iterated from its last map to the first, so the values come
    before the approximations. -/
noncomputable def Log.add (L : Log I K) (new : K → Option I) : Log I K × Option PyErr :=
  match addValues new L.values with
  | (vs, some e) => ({ L with values := vs }, some e)
  | (vs, none) =>
      let r := addApprox h dim new L.approx
      ({ L with values := vs, approx := r.1 }, r.2)

/-- `ConvergenceLog.add` of a tuple or list, demo/common.py:128-129. -/
noncomputable def Log.addList (L : Log I K) (xs : List I) : Log I K × Option PyErr :=
  L.add h dim (fun k => (L.names.zip xs).lookup k)

/-- A sequence of calls of `add`; exceptions are caught by the caller, who goes on. -/
noncomputable def Log.run (L : Log I K) : List (K → Option I) → Log I K
  | [] => L
  | new :: rest => (L.add h dim new).1.run rest

/-- A sequence of calls of `add`, which ends with the first exception. -/
noncomputable def Log.runAll (L : Log I K) : List (K → Option I) → Py (Log I K)
  | [] => .ok L
  | new :: rest =>
      match L.add h dim new with
      | (_, some e) => .error e
      | (L, none) => L.runAll rest

/-- The cells of `SubMesh(mesh, cell_f, tag)` after `set_all(0)` and `mark(cell_f, tag)`, demo/common.py:23-26; `inside` tells the cells marked by the
    subdomain. -/
def marked {C : Type} (cells : List C) (inside : C → Bool) (tag : Nat) : List C :=
  cells.filter (fun c => (if inside c then tag else 0) == tag)

/-- The loop of demo/common.py:22-33; `normF tag cells` is the error of `uh`, restricted to the mesh of the cells, from `u[tag]`. -/
def brokenErrors {C : Type} (cells : List C) (subdomains : Nat → Option (C → Bool)) (normF : Nat → List C → Py ℝ) : List Nat → Py (List ℝ)
  | [] => .ok []
  | tag :: tags =>
      match subdomains tag with
      | none => .error .keyError
      | some inside =>
          if marked cells inside tag = [] then brokenErrors cells subdomains normF tags
          else
            match normF tag (marked cells inside tag) with
            | .error e => .error e
            | .ok e =>
                match brokenErrors cells subdomains normF tags with
                | .error x => .error x
                | .ok es => .ok (e :: es)

/-- `broken_norm(subdomains, norm_f)(u, uh)`, demo/common.py:12-37; `tags` are the keys of `u`. -/
noncomputable def brokenNorm {C : Type} (cells : List C) (subdomains : Nat → Option (C → Bool)) (normF : Nat → List C → Py ℝ) (tags : List Nat) :
    Py ℝ := do
  let es ← brokenErrors cells subdomains normF tags
  .ok (√((es.map (fun e => e ^ 2)).sum))

/-- The end of a demo: `sys.exit(int(passed))`, or an exception with its traceback. -/
inductive Ending where
  | finished (passed : Bool)
  | raised (traceback : List Char)

/-- `p.returncode`: Python exits with 1 after an exception. -/
def Ending.code : Ending → Nat
  | .finished passed => if passed then 1 else 0
  | .raised _ => 1

/-- What `p.communicate()` returns: the standard error output goes to the same place. -/
def output (printed : List Char) : Ending → List Char
  | .finished _ => printed
  | .raised tb => printed ++ tb

/-- `run`, demo/test_demos.py:5-14. -/
def runDemo (printed : List Char) (e : Ending) : Bool :=
  if "Error".toList <:+: output printed e then false else e.code == 1

end Verif.ConvLog
