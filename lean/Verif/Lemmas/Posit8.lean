import Verif.Lemmas.TableFloat
import Verif.Model.Format

/-! # What the kernel checks about the posit8 tables -/

namespace Verif.Posit8
open Fmt

/-- the numbers of the format in units of 1/64, 16 bits each -/
def wLit : Nat := 0x1000080006000400038003000280020001e001c001a00180016001400120010000f800f000e800e000d800d000c800c000b800b000a800a00098009000880080007e007c007a00780076007400720070006e006c006a00680066006400620060005e005c005a00580056005400520050004e004c004a00480046004400420040003f003e003d003c003b003a0039003800370036003500340033003200310030002f002e002d002c002b002a0029002800270026002500240023002200210020001f001e001d001c001b001a0019001800170016001500140013001200110010000f000e000d000c000b000a0009000800070006000500040003000200010000

/-- number of the positive pattern `k` in units of 1/64 -/
def W (k : Nat) : Nat := Nat.mod (Nat.shiftRight wLit (Nat.mul 16 k)) 65536

theorem W_spec : ∀ k, 1 ≤ k → k ≤ 127 → posVal cfg.fmt.N cfg.fmt.es k * 2 ^ 6 = W k := by
  have : ∀ k : Fin 128, 1 ≤ k.val → posVal cfg.fmt.N cfg.fmt.es k * 2 ^ 6 = W k := by decide +kernel
  intro k h1 h2
  exact this ⟨k, by omega⟩ h1

/-- the byte `t` is the number ±n/(64 d) truncated -/
def chk8 (neg : Bool) (n d t : Nat) : Bool := chk W 127 128 neg n d t

/-- entry `t` at (a, b) of the multiplication table -/
def mulChk (a b t : Nat) : Bool :=
  bif Nat.beq a 128 then Nat.beq t 128 else bif Nat.beq b 128 then Nat.beq t 128
  else bif Nat.beq a 0 then Nat.beq t 0 else bif Nat.beq b 0 then Nat.beq t 0
  else chk8 (sx 128 a b) (Nat.mul (W (mg 128 a)) (W (mg 128 b))) 64 t

/-- entry `t` at (a, b) of the division table -/
def divChk (a b t : Nat) : Bool :=
  bif Nat.beq a 128 then Nat.beq t 128 else bif Nat.beq b 128 then Nat.beq t 128
  else bif Nat.beq b 0 then Nat.beq t 128 else bif Nat.beq a 0 then Nat.beq t 0
  else chk8 (sx 128 a b) (Nat.mul (W (mg 128 a)) 64) (W (mg 128 b)) t

/-- entry `t` at (a, b) of the addition table -/
def addChk (a b t : Nat) : Bool :=
  bif Nat.beq a 128 then Nat.beq t 128 else bif Nat.beq b 128 then Nat.beq t 128
  else bif Nat.beq a 0 then Nat.beq t b
  else bif Nat.beq b 0 then Nat.beq t a
  else bif sx 128 a b then
    bif Nat.beq (mg 128 a) (mg 128 b) then Nat.beq t 0
    else bif Nat.ble (mg 128 a) (mg 128 b) then chk8 (Nat.ble 128 b) (Nat.sub (W (mg 128 b)) (W (mg 128 a))) 1 t
    else chk8 (Nat.ble 128 a) (Nat.sub (W (mg 128 a)) (W (mg 128 b))) 1 t
  else chk8 (Nat.ble 128 a) (Nat.add (W (mg 128 a)) (W (mg 128 b))) 1 t

/-- entry `t` at `a` of the reciprocal table, except at 0 -/
def invChk (_ a t : Nat) : Bool :=
  bif Nat.beq a 128 then Nat.beq t 128 else bif Nat.beq a 0 then true
  else chk8 (Nat.ble 128 a) 4096 (W (mg 128 a)) t

/-- entry `t` at `a` of the table of halves -/
def halfChk (_ a t : Nat) : Bool :=
  bif Nat.beq a 128 then Nat.beq t 128 else bif Nat.beq a 0 then Nat.beq t 0
  else chk8 (Nat.ble 128 a) (W (mg 128 a)) 2 t

/-- entry `t` at `a` of the table of squares -/
def squareChk (_ a t : Nat) : Bool :=
  bif Nat.beq a 128 then Nat.beq t 128 else bif Nat.beq a 0 then Nat.beq t 0
  else chk8 false (Nat.mul (W (mg 128 a)) (W (mg 128 a))) 64 t

/-- entry `t` at `a` of the table of powers of two, with 64th powers -/
def exp2Chk (_ a t : Nat) : Bool :=
  bif Nat.beq a 128 then Nat.beq t 128
  else bif Nat.ble 128 a then truncChk (fun k => Nat.pow (W k) 64) 127 (Nat.pow 2 384) (Nat.pow 2 (W (mg 128 a))) t
  else truncChk (fun k => Nat.pow (W k) 64) 127 (Nat.pow 2 (Nat.add 384 (bif Nat.beq a 0 then 0 else W a))) 1 t

/-- entry `t` at `a` of the table of floats -/
def floatChk (_ a t : Nat) : Bool := f2Chk W 128 144 a t

theorem float_ok : checkRows 32 256 floatChk op2floatTab 1 = true := by decide +kernel
theorem inv_ok : checkRows 8 256 invChk opinvTab 1 = true := by decide +kernel
theorem half_ok : checkRows 8 256 halfChk ophalfTab 1 = true := by decide +kernel
theorem square_ok : checkRows 8 256 squareChk opsquareTab 1 = true := by decide +kernel
theorem exp2_ok : checkRows 8 256 exp2Chk opexp2Tab 1 = true := by decide +kernel

end Verif.Posit8
