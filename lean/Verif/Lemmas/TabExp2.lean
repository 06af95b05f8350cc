import Verif.Lemmas.Posit12Use

/-! # What the kernel checks about the posit12 table of powers of two -/

namespace Verif.Posit12
open Fmt

/-- number of binary digits after the point of the numbers `w/2^40` of the format from 2^-8 on -/
def dig (w : Nat) : Nat := bif Nat.ble (Nat.pow 2 36) w then bif Nat.ble (Nat.pow 2 40) w then 7 else 11 else 14

/-- `2^20`, or one more if `w/2^40` is not an integer -/
def slack (w : Nat) : Nat := bif Nat.beq (Nat.mod w (Nat.pow 2 40)) 0 then Nat.pow 2 20 else Nat.succ (Nat.pow 2 20)

/-- `(W t / 2^40) * (slack / 2^20) ≤ 2^(±w/2^40)` with both sides raised to the power `2^d` -/
def loChk (neg : Bool) (w t d : Nat) : Bool :=
  Nat.ble (Nat.mul (Nat.pow (Nat.mul (W t) (slack w)) (Nat.pow 2 d)) (bif neg then Nat.pow 2 (Nat.div w (Nat.pow 2 (Nat.sub 40 d))) else 1))
    (Nat.pow 2 (Nat.add (Nat.mul 60 (Nat.pow 2 d)) (bif neg then 0 else Nat.div w (Nat.pow 2 (Nat.sub 40 d)))))

/-- `2^(±w/2^40) * (slack / 2^20) < W t / 2^40` with both sides raised to the power `2^d` -/
def hiChk (neg : Bool) (w t d : Nat) : Bool :=
  Nat.ble (Nat.succ (Nat.mul (Nat.pow (Nat.mul (Nat.pow 2 40) (slack w)) (Nat.pow 2 d))
      (bif neg then 1 else Nat.pow 2 (Nat.div w (Nat.pow 2 (Nat.sub 40 d))))))
    (Nat.mul (Nat.pow (Nat.mul (W t) (Nat.pow 2 20)) (Nat.pow 2 d)) (bif neg then Nat.pow 2 (Nat.div w (Nat.pow 2 (Nat.sub 40 d))) else 1))

/-- entry `t` for the number `±w/2^40` with magnitude pattern `k` -/
def exp2Val (neg : Bool) (k w t : Nat) : Bool :=
  bif Nat.beq k 0 then Nat.beq t 1024
  else bif Nat.ble (Nat.pow 2 46) w then
    bif Nat.beq (Nat.mod w (Nat.pow 2 40)) 0 then
      bif neg then Nat.beq t (bif Nat.ble (Nat.mul 143 (Nat.pow 2 40)) w then 0 else 1)
      else Nat.beq t (bif Nat.ble (Nat.pow 2 47) w then 63488 else 2047)
    else false
  else bif Nat.ble w (Nat.pow 2 32) then
    bif neg then Nat.beq t (bif Nat.ble k 14 then 1024 else 1023) else Nat.beq t 1024
  else bif Nat.beq (Nat.mod w (Nat.pow 2 (Nat.sub 40 (dig w)))) 0 then
    bif (bif neg then Nat.ble (Nat.mul 40 (Nat.pow 2 40)) (Nat.pred w) else false) then
      bif Nat.beq t 1 then hiChk neg w 1 (dig w) else false
    else bif Nat.ble 1 t then bif Nat.ble t 2047 then bif loChk neg w t (dig w) then
      bif Nat.beq t 2047 then true else hiChk neg w (Nat.succ t) (dig w)
    else false else false else false
  else false

/-- entry `t` at `64*r+j` of the table of powers of two -/
def exp2Chk (r j t : Nat) : Bool :=
  bif Nat.beq (Nat.add (Nat.mul 64 r) j) 2048 then Nat.beq t 63488
  else exp2Val (Nat.ble 2048 (Nat.add (Nat.mul 64 r) j)) (mg 2048 (Nat.add (Nat.mul 64 r) j))
    (W (mg 2048 (Nat.add (Nat.mul 64 r) j))) t

theorem exp2_ok : checkRows 16 64 exp2Chk opexp2Tab 64 = true := by decide +kernel

end Verif.Posit12
