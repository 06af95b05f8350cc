import Verif.Model.FloatConv

/-!
# The MATLAB functions on arrays of posits — matlab/p8binop.cpp, matlab/p8unop.cpp, matlab/p8Tofloat.cpp, src/floatTop8.cpp

The files name the type `Posit<int8_t,8,0,uint16_t,true>`. The last parameter has since become a `PositSpec`, to which `true` does
not convert, so they do not compile as they are; the model takes any `PositSpec` in its place.

An array holds the values of its elements in order, a complex one the real and the imaginary part of each (the interleaved
representation, which the factor 2 of the code wants). Elements of class `int8` are signed numbers, those of the other numeric
classes are patterns. Reading or writing outside an array is a fault. Texts of messages are left out.
-/

namespace Verif.Mex

/-- `mxClassID`, the ones that the code names -/
inductive Cls where
  | double | single | int8 | int16 | uint16 | char | other
  deriving DecidableEq, Repr

/-- an `mxArray` that is passed in. `text` is what `mxArrayToString` returns for one of class `char`,
as codes and without the zero at its end. -/
structure Arr where
  cls : Cls
  complex : Bool := false
  dims : List Nat
  data : List Int := []
  text : List Nat := []
  deriving DecidableEq, Repr

/-- `mxGetNumberOfElements` -/
def Arr.numel (a : Arr) : Nat := a.dims.foldl (· * ·) 1

/-- an array created by `mxCreateUninitNumericArray`: elements that have not been written are `none` -/
structure Fresh where
  cls : Cls
  complex : Bool
  dims : List Nat
  data : List (Option Int)
  deriving DecidableEq, Repr

/-- `mxCreateUninitNumericArray` -/
def uninit (dims : List Nat) (cls : Cls) (complex : Bool) : Fresh :=
  ⟨cls, complex, dims, List.replicate (dims.foldl (· * ·) 1 * (if complex then 2 else 1)) none⟩

/-- what goes wrong -/
inductive Fault where
  /-- a read or write outside an array -/
  | outOfBounds
  /-- undefined behaviour in the operations on posits -/
  | posit (u : UB)
  deriving DecidableEq, Repr

/-- how a call ends: quietly, after a message (`mexPrintf`), or with an error (`mexErrMsgTxt`) -/
inductive End where
  | quiet | message | error
  deriving DecidableEq, Repr

/-- the end of a call and `plhs[0]`, if it has been set -/
structure Result where
  how : End
  out : Option Fresh := none
  deriving DecidableEq, Repr

/-- a step that may be at fault -/
abbrev X (α : Type) := Except Fault α

/-- a computation on posits -/
def lift {α : Type} : M α → X α
  | .ok v => .ok v
  | .error u => .error (.posit u)

/-- `prhs[i]` -/
def arg (prhs : List Arr) (i : Nat) : X Arr :=
  match prhs[i]? with
  | some a => .ok a
  | none => .error .outOfBounds

/-- `p[i]` for a pointer to the first element -/
def get (d : List Int) (i : Nat) : X Int :=
  match d[i]? with
  | some x => .ok x
  | none => .error .outOfBounds

/-- `opa[i]` for a C string: its characters and a zero -/
def charAt (s : List Nat) (i : Nat) : X Nat :=
  match (s ++ [0])[i]? with
  | some x => .ok x
  | none => .error .outOfBounds

/-- the rest of `for(int i = 0; i < n; i++) dst[i] = f(i);` with `k` rounds to go -/
def fill (f : Nat → X Int) : Nat → Nat → List (Option Int) → X (List (Option Int))
  | 0, _, d => .ok d
  | k + 1, i, d => do
    let v ← f i
    if i < d.length then fill f k (i + 1) (d.set i (some v)) else .error .outOfBounds

/-- the loop; `n` is an `int` -/
def loop (n : Int) (f : Nat → X Int) (d : Fresh) : X Fresh := do
  let r ← fill f n.toNat 0 d.data
  return { d with data := r }

/-- `int n = mxGetNumberOfElements(a)*(complex?2:1)` — matlab/p8binop.cpp:29,34 and the like -/
def count (a : Arr) : Int := wrapS 32 (a.numel * (if a.complex then 2 else 1) : Nat)

/-- `Posit<int8_t,8,0,uint16_t,…>` — matlab/p8binop.cpp:5, matlab/p8unop.cpp:5, matlab/p8Tofloat.cpp:6, src/floatTop8.cpp:5 -/
def z8 (s : PSpec) : Cfg := ⟨8, 8, 0, 16, s⟩

/-- the four loops — matlab/p8binop.cpp:56-79, the operation as a parameter -/
def binLoop (s : PSpec) (g : Cfg → Int → Int → M Int) (a b : Arr) (dst : Fresh) : X Result := do
  let r ← loop (count a) (fun i => do let x ← get a.data i; let y ← get b.data i; lift (g (z8 s) x y)) dst
  return { how := .quiet, out := some r }

/-- `mexFunction` — matlab/p8binop.cpp:8-85 (the codes of `+`, `-`, `*` and `/` are 43, 45, 42 and 47) -/
def binop (s : PSpec) (nlhs : Nat) (prhs : List Arr) : X Result := do
  if prhs.length ≠ 3 ∧ nlhs ≠ 1 then return { how := .message }
  let a ← arg prhs 0
  let b ← arg prhs 1
  if a.cls ≠ b.cls ∨ a.cls ≠ .int8 then return { how := .message }
  let o ← arg prhs 2
  if o.cls ≠ .char then return { how := .message }
  if count a ≠ count b then return { how := .message }
  let c1 ← charAt o.text 1
  if c1 ≠ 0 then return { how := .message }
  let dst := uninit a.dims .int8 b.complex
  let op ← charAt o.text 0
  if op = 43 then binLoop s Posit.add a b dst
  else if op = 45 then binLoop s Posit.sub a b dst
  else if op = 42 then binLoop s Posit.mul a b dst
  else if op = 47 then binLoop s Posit.div a b dst
  else return { how := .message, out := some dst }

/-- the loop — matlab/p8unop.cpp:36-39 -/
def unLoop (s : PSpec) (a : Arr) (dst : Fresh) : X Result := do
  let r ← loop (count a) (fun i => do let x ← get a.data i; lift (Posit.inv (z8 s) x)) dst
  return { how := .quiet, out := some r }

/-- `mexFunction` — matlab/p8unop.cpp:8-49 (105, 110, 118 is `inv`) -/
def unop (s : PSpec) (nlhs : Nat) (prhs : List Arr) : X Result := do
  if prhs.length ≠ 2 ∧ nlhs ≠ 1 then return { how := .message }
  let a ← arg prhs 0
  if a.cls ≠ .int8 then return { how := .message }
  let o ← arg prhs 1
  if o.cls ≠ .char then return { how := .message }
  let dst := uninit a.dims .int8 a.complex
  if o.text = [105, 110, 118] then unLoop s a dst
  else return { how := .message, out := some dst }

/-- the three loops — matlab/p8Tofloat.cpp:39-66, the float type as a parameter -/
def toLoop (s : PSpec) (t : FTrait) (a : Arr) (dst : Fresh) : X Result := do
  let r ← loop (count a) (fun i => do
    let x ← get a.data i
    let b ← lift (Posit.toFloat (z8 s) t x)
    return (b : Int)) dst
  return { how := .quiet, out := some r }

/-- `mexFunction` — matlab/p8Tofloat.cpp:8-71 -/
def tofloat (s : PSpec) (nlhs : Nat) (prhs : List Arr) : X Result := do
  if prhs.length ≠ 2 ∧ nlhs ≠ 1 then return { how := .message }
  let a ← arg prhs 0
  if a.cls ≠ .int8 then return { how := .message }
  let o ← arg prhs 1
  match o.cls with
  | .double => toLoop s .double a (uninit a.dims o.cls a.complex)
  | .single => toLoop s .single a (uninit a.dims o.cls a.complex)
  | .int16 | .uint16 => toLoop s .half a (uninit a.dims o.cls a.complex)
  | _ => return { how := .message }

/-- the three loops — src/floatTop8.cpp:24-49, the float type as a parameter -/
def ofLoop (s : PSpec) (t : FTrait) (a : Arr) (dst : Fresh) : X Result := do
  let r ← loop (count a) (fun i => do let x ← get a.data i; lift (Posit.ofFloat (z8 s) t x.toNat)) dst
  return { how := .quiet, out := some r }

/-- `mexFunction` — src/floatTop8.cpp:8-56 -/
def offloat (s : PSpec) (nlhs : Nat) (prhs : List Arr) : X Result := do
  if prhs.length ≠ 1 ∧ nlhs ≠ 1 then return { how := .message }
  let a ← arg prhs 0
  let dst := uninit a.dims .int8 a.complex
  match a.cls with
  | .double => ofLoop s .double a dst
  | .single => ofLoop s .single a dst
  | .int16 | .uint16 => ofLoop s .half a dst
  | _ => return { how := .error, out := some dst }

end Verif.Mex
