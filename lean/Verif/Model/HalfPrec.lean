import Verif.Cpp

/-!
# Half precision conversion routines — matlab/halfprecision/halfprecision.c, matlab/halfprecision/ieeehalfprecision.c

The two files contain the same four conversions; the second one repeats the platform check of the first in every routine
and uses `long` instead of `int32_t`.  Line numbers refer to halfprecision.c unless stated otherwise.

Words are `Nat` below `2^16` / `2^32`.  Shifts by constants are in range and written `>>>`, `<<<`; shifts by computed amounts
go through `shrU`/`shlS`, so that an amount out of range is undefined behaviour.  Memory is a function from word indices to
words; source and target do not overlap; the access of floats through integer pointers is taken to give their bits.
-/

namespace Verif.HalfPrec

/-- body of the loop of `singles2halfp`: one float to one half — halfprecision.c:397-436 -/
def ofSingle (x : Nat) : M Nat :=
  if x &&& 0x7FFFFFFF = 0 then .ok ((x >>> 16) % 2 ^ 16)
  else
    let xs := x &&& 0x80000000
    let xe := x &&& 0x7F800000
    let xm := x &&& 0x007FFFFF
    if xe = 0 then .ok ((xs >>> 16) % 2 ^ 16)
    else if xe = 0x7F800000 then
      if xm = 0 then .ok (((xs >>> 16) ||| 0x7C00) % 2 ^ 16) else .ok 0xFE00
    else
      let hs := (xs >>> 16) % 2 ^ 16
      let hes : Int := (xe >>> 23 : Nat) - 127 + 15
      if hes ≥ 0x1F then .ok (((xs >>> 16) ||| 0x7C00) % 2 ^ 16)
      else if hes ≤ 0 then
        if 14 - hes > 24 then .ok (hs ||| 0)
        else do
          let xm := xm ||| 0x00800000
          let hm := (← shrU 32 xm (14 - hes)) % 2 ^ 16
          let hm := if (← shrU 32 xm (13 - hes)) &&& 1 ≠ 0 then (hm + 1) % 2 ^ 16 else hm
          return hs ||| hm
      else do
        let he := wrapU 16 (← shlS 32 hes 10)
        let hm := (xm >>> 13) % 2 ^ 16
        if xm &&& 0x00001000 ≠ 0 then return ((hs ||| he ||| hm) + 1) % 2 ^ 16
        else return hs ||| he ||| hm

/-- body of the loop of `doubles2halfp`: the upper word of a double to one half — halfprecision.c:456-495 -/
def ofDoubleHigh (x : Nat) : M Nat :=
  if x &&& 0x7FFFFFFF = 0 then .ok ((x >>> 16) % 2 ^ 16)
  else
    let xs := x &&& 0x80000000
    let xe := x &&& 0x7FF00000
    let xm := x &&& 0x000FFFFF
    if xe = 0 then .ok ((xs >>> 16) % 2 ^ 16)
    else if xe = 0x7FF00000 then
      if xm = 0 then .ok (((xs >>> 16) ||| 0x7C00) % 2 ^ 16) else .ok 0xFE00
    else
      let hs := (xs >>> 16) % 2 ^ 16
      let hes : Int := (xe >>> 20 : Nat) - 1023 + 15
      if hes ≥ 0x1F then .ok (((xs >>> 16) ||| 0x7C00) % 2 ^ 16)
      else if hes ≤ 0 then
        if 10 - hes > 21 then .ok (hs ||| 0)
        else do
          let xm := xm ||| 0x00100000
          let hm := (← shrU 32 xm (11 - hes)) % 2 ^ 16
          let hm := if (← shrU 32 xm (10 - hes)) &&& 1 ≠ 0 then (hm + 1) % 2 ^ 16 else hm
          return hs ||| hm
      else do
        let he := wrapU 16 (← shlS 32 hes 10)
        let hm := (xm >>> 10) % 2 ^ 16
        if xm &&& 0x00000200 ≠ 0 then return ((hs ||| he ||| hm) + 1) % 2 ^ 16
        else return hs ||| he ||| hm

/-- the `do … while` loop that normalizes a subnormal mantissa — halfprecision.c:521-525, 570-574.  The result is the pair
`(e, hm)`; `none` if the loop condition still holds after `fuel` passes (16 shifts of a `uint16_t` make it 0, from then on
the loop would never end). -/
def normLoop : Nat → Int → Nat → Option (Int × Nat)
  | 0, _, _ => none
  | fuel + 1, e, hm =>
    let e := e + 1
    let hm := (hm <<< 1) % 2 ^ 16
    if hm &&& 0x0400 = 0 then normLoop fuel e hm else some (e, hm)

/-- body of the loop of `halfp2singles`: one half to one float; `none` if it does not end — halfprecision.c:513-543 -/
def toSingle (h : Nat) : Option (M Nat) :=
  if h &&& 0x7FFF = 0 then some (.ok ((h <<< 16) % 2 ^ 32))
  else
    let hs := h &&& 0x8000
    let he := h &&& 0x7C00
    let hm := h &&& 0x03FF
    if he = 0 then
      match normLoop 16 (-1) hm with
      | none => none
      | some (e, hm) => some (do
        let xs := (hs <<< 16) % 2 ^ 32
        let xes : Int := (he >>> 10 : Nat) - 15 + 127 - e
        let xe := wrapU 32 (← shlS 32 xes 23)
        let xm := ((hm &&& 0x03FF) <<< 13) % 2 ^ 32
        return xs ||| xe ||| xm)
    else if he = 0x7C00 then
      if hm = 0 then some (.ok ((hs <<< 16) % 2 ^ 32 ||| 0x7F800000)) else some (.ok 0xFFC00000)
    else some (do
      let xs := (hs <<< 16) % 2 ^ 32
      let xes : Int := (he >>> 10 : Nat) - 15 + 127
      let xe := wrapU 32 (← shlS 32 xes 23)
      let xm := (hm <<< 13) % 2 ^ 32
      return xs ||| xe ||| xm)

/-- body of the loop of `halfp2doubles`: one half to the upper word of a double — halfprecision.c:564-594 -/
def toDoubleHigh (h : Nat) : Option (M Nat) :=
  if h &&& 0x7FFF = 0 then some (.ok ((h <<< 16) % 2 ^ 32))
  else
    let hs := h &&& 0x8000
    let he := h &&& 0x7C00
    let hm := h &&& 0x03FF
    if he = 0 then
      match normLoop 16 (-1) hm with
      | none => none
      | some (e, hm) => some (do
        let xs := (hs <<< 16) % 2 ^ 32
        let xes : Int := (he >>> 10 : Nat) - 15 + 1023 - e
        let xe := wrapU 32 (← shlS 32 xes 20)
        let xm := ((hm &&& 0x03FF) <<< 10) % 2 ^ 32
        return xs ||| xe ||| xm)
    else if he = 0x7C00 then
      if hm = 0 then some (.ok ((hs <<< 16) % 2 ^ 32 ||| 0x7FF00000)) else some (.ok 0xFFF80000)
    else some (do
      let xs := (hs <<< 16) % 2 ^ 32
      let xes : Int := (he >>> 10 : Nat) - 15 + 1023
      let xe := wrapU 32 (← shlS 32 xes 20)
      let xm := (hm <<< 10) % 2 ^ 32
      return xs ||| xe ||| xm)

/-- memory: the word at each index -/
abbrev Mem := Nat → Nat

/-- store one word -/
def Mem.set (m : Mem) (i v : Nat) : Mem := fun j => if j = i then v else m j

/-- `while(numel--) { … }` around a conversion, with the two running indices: each pass reads one word of the source, stores
one word of the target and advances the indices by the numbers of words the routine advances its pointers. -/
def copyLoop (conv : Nat → Option (M Nat)) (sstep tstep : Nat) (src : Mem) :
    Nat → Nat → Nat → Mem → Option (M Mem)
  | 0, _, _, tgt => some (.ok tgt)
  | n + 1, s, t, tgt =>
    match conv (src s) with
    | none => none
    | some (.error u) => some (.error u)
    | some (.ok v) => copyLoop conv sstep tstep src n (s + sstep) (t + tstep) (tgt.set t v)

/-- `singles2halfp` — halfprecision.c:385-438 -/
def singles2halfp (src : Mem) (numel : Nat) (tgt : Mem) : Option (M Mem) :=
  copyLoop (fun x => some (ofSingle x)) 1 1 src numel 0 0 tgt

/-- `doubles2halfp` — halfprecision.c:442-497; `next` is 1 on little endian machines -/
def doubles2halfp (next : Nat) (src : Mem) (numel : Nat) (tgt : Mem) : Option (M Mem) :=
  copyLoop (fun x => some (ofDoubleHigh x)) 2 1 src numel next 0 tgt

/-- `halfp2singles` — halfprecision.c:501-546 -/
def halfp2singles (src : Mem) (numel : Nat) (tgt : Mem) : Option (M Mem) :=
  copyLoop toSingle 1 1 src numel 0 0 tgt

/-- `halfp2doubles` — halfprecision.c:550-598; the second word of each double is skipped -/
def halfp2doubles (next : Nat) (src : Mem) (numel : Nat) (tgt : Mem) : Option (M Mem) :=
  copyLoop toDoubleHigh 1 2 src numel 0 next tgt

/-- the bytes of the double 1.0 in memory -/
def oneBytes (little : Bool) : List Nat :=
  if little then [0, 0, 0, 0, 0, 0, 0xF0, 0x3F] else [0x3F, 0xF0, 0, 0, 0, 0, 0, 0]

/-- the unsigned integer of `w` bytes stored from byte `o` on -/
def readInt (little : Bool) (bytes : List Nat) (o w : Nat) : Nat :=
  let bs := (bytes.drop o).take w
  (if little then bs.reverse else bs).foldl (fun a b => a * 256 + b) 0

/-- the platform check — ieeehalfprecision.c:105-121 (and 198-214, 293-309, 378-394; halfprecision.c:205-221): `none` if it
fails (`return 1`, or the error message), else the value of `next`.  `w` is the size of `UINT32_TYPE` in bytes: 4 for
`uint32_t` (halfprecision.c), the size of `long` in ieeehalfprecision.c. -/
def check (w : Nat) (little : Bool) : Option Nat :=
  let one := oneBytes little
  let (next, ip) := if readInt little one 0 w ≠ 0 then (0, 0) else (1, w)
  if readInt little one ip w ≠ 0x3FF00000 then none
  else if w ≠ 4 then none
  else some next

/-- `singles2halfp` of ieeehalfprecision.c:93-169: the code returned and the target -/
def ieeeSingles2halfp (w : Nat) (little : Bool) (src : Mem) (numel : Nat) (tgt : Mem) : Option (M (Nat × Mem)) :=
  match check w little with
  | none => some (.ok (1, tgt))
  | some _ => (singles2halfp src numel tgt).map (fun r => r.map (fun m => (0, m)))

/-- `doubles2halfp` of ieeehalfprecision.c:186-264 -/
def ieeeDoubles2halfp (w : Nat) (little : Bool) (src : Mem) (numel : Nat) (tgt : Mem) : Option (M (Nat × Mem)) :=
  match check w little with
  | none => some (.ok (1, tgt))
  | some next => (doubles2halfp next src numel tgt).map (fun r => r.map (fun m => (0, m)))

/-- `halfp2singles` of ieeehalfprecision.c:281-349 -/
def ieeeHalfp2singles (w : Nat) (little : Bool) (src : Mem) (numel : Nat) (tgt : Mem) : Option (M (Nat × Mem)) :=
  match check w little with
  | none => some (.ok (1, tgt))
  | some _ => (halfp2singles src numel tgt).map (fun r => r.map (fun m => (0, m)))

/-- `halfp2doubles` of ieeehalfprecision.c:366-437 -/
def ieeeHalfp2doubles (w : Nat) (little : Bool) (src : Mem) (numel : Nat) (tgt : Mem) : Option (M (Nat × Mem)) :=
  match check w little with
  | none => some (.ok (1, tgt))
  | some next => (halfp2doubles next src numel tgt).map (fun r => r.map (fun m => (0, m)))

end Verif.HalfPrec
