import Verif.Cpp
import Verif.Model.Config
import Verif.Model.Instances
import Verif.Model.Unpacked
import Verif.Model.Posit
import Verif.Model.Format
import Verif.Spec.Format
import Verif.Spec.Safe
import Verif.Spec.Special
import Verif.Lemmas.LG
import Verif.Lemmas.Format
import Verif.Lemmas.Val
import Verif.Lemmas.Cpp
import Verif.Lemmas.Decode
import Verif.Lemmas.Pack
import Verif.Lemmas.PackTrunc
import Verif.Lemmas.Unpack
import Verif.Lemmas.Grid
import Verif.Lemmas.Arith
import Verif.Lemmas.AddArith
import Verif.Lemmas.Ops
import Verif.Lemmas.Low
import Verif.Lemmas.AddReal
import Verif.Lemmas.Sym
import Verif.Lemmas.Consts
import Verif.Model.Limits
import Verif.Lemmas.Scale
import Verif.Lemmas.Unit
import Verif.Lemmas.Analyze
import Verif.Props.Encoding
import Verif.Props.Order
import Verif.Props.Arith
import Verif.Props.Algebra
import Verif.Props.Special
import Verif.Props.Step
import Verif.Props.Scale
import Verif.Props.Constants
import Verif.Props.Analyze
import Verif.Spec.Fits
import Verif.Spec.Unpacked
import Verif.Lemmas.Den
import Verif.Lemmas.Fused
import Verif.Props.Fused
import Verif.Props.Unpacked
import Verif.Props.Convert
import Verif.Props.Safety
import Verif.Model.BitHelpers
import Verif.Model.FloatConv
import Verif.Spec.Bits
import Verif.Spec.Ieee
import Verif.Props.Bits
import Verif.Props.U128
import Verif.Spec.Fixed
import Verif.Lemmas.FloatConv
import Verif.Lemmas.Fixed
import Verif.Lemmas.Float
import Verif.Props.Fixed
import Verif.Props.Float
import Verif.Props.FloatPack
import Verif.Model.Posit8Tbl
import Verif.Model.Posit12Tbl
import Verif.Model.Tabulated
import Verif.Model.Binary8
import Verif.Model.Binary8Gen
import Verif.Lemmas.Table
import Verif.Lemmas.TableFloat
import Verif.Lemmas.Posit8
import Verif.Lemmas.Posit8Mul
import Verif.Lemmas.Posit8Div
import Verif.Lemmas.Posit8Add
import Verif.Lemmas.Posit8Use
import Verif.Lemmas.Posit12
import Verif.Lemmas.Posit12Use
import Verif.Props.Tables
import Verif.Props.Exp2
import Verif.Props.Binary8
import Verif.Props.Binary8Gen
import Verif.Lemmas.Activation
import Verif.Props.Activation
import Verif.Model.PositF
import Verif.Spec.FloatArith
import Verif.Lemmas.PositF
import Verif.Props.PositF
import Verif.Model.Posit10Gen
import Verif.Props.Posit10
import Verif.Model.AnyFloat
import Verif.Lemmas.AnyFloat
import Verif.Props.AnyFloat
import Verif.Props.AnyFloatEmu
import Verif.Props.AnyFloatSpecial
import Verif.Model.Float2Bits
import Verif.Lemmas.Float2Bits
import Verif.Props.Float2Bits
import Verif.Model.Float16n32
import Verif.Props.Float16n32
import Verif.Model.SimdPosit8
import Verif.Props.SimdPosit8
import Verif.Model.TabGen
import Verif.Props.TabGen
import Verif.Spec.Sum
import Verif.Lemmas.CutSum
import Verif.Lemmas.AddExact
import Verif.Props.Sum
import Verif.Spec.Spacing
import Verif.Lemmas.Spacing
import Verif.Lemmas.Ulp
import Verif.Model.PositMul
import Verif.Props.Equiv
import Verif.Props.Sterbenz
import Verif.Props.ErrorBound
import Verif.Spec.SoftFloat
import Verif.Lemmas.SoftFloat
import Verif.Props.SoftFloat
import Verif.Props.Laws
import Verif.Props.Mixed
import Verif.Props.Integers
import Verif.Model.Pnum
import Verif.Spec.Pnum
import Verif.Lemmas.Pnum
import Verif.Props.Pnum
import Verif.Props.PnumArith
import Verif.Props.PnumBound
import Verif.Model.TabulatedMore
import Verif.Lemmas.F32ToInt
import Verif.Props.TabulatedMore
import Verif.Model.PositFMore
import Verif.Props.PositFMore
import Verif.Model.LimitsMore
import Verif.Props.Digits
import Verif.Model.Simd
import Verif.Lemmas.Simd
import Verif.Props.Simd
import Verif.Props.SimdLoad
import Verif.Spec.Half
import Verif.Model.HalfPrec
import Verif.Lemmas.HalfPrec
import Verif.Lemmas.HalfPrecBits
import Verif.Lemmas.HalfPrecWiden
import Verif.Props.HalfPrec
import Verif.Props.HalfPrecArray
import Verif.Spec.TowardZero
import Verif.Lemmas.NoDenorm
import Verif.Props.NoDenorm
import Verif.Spec.Extended
import Verif.Lemmas.Extended
import Verif.Props.Extended
import Verif.Spec.ExtConvert
import Verif.Spec.ExtUnary
import Verif.Lemmas.ExtConvert
import Verif.Lemmas.ExtUnary
import Verif.Props.ExtConvert
import Verif.Props.ExtUnary
import Verif.Spec.Sigmoid
import Verif.Lemmas.Sigmoid
import Verif.Props.Sigmoid
import Verif.Model.Float2Posit
import Verif.Lemmas.Float2Posit
import Verif.Props.Float2Posit
import Verif.Props.TestIdentities
import Verif.Lemmas.Narrow
import Verif.Lemmas.NarrowPack
import Verif.Props.Narrow
import Verif.Model.FixedWide
import Verif.Props.FixedFull
import Verif.Props.UnitRange
import Verif.Props.ConvOrder
import Verif.Model.ListPosits
import Verif.Props.ListPosits
import Verif.Spec.EmuFloat
import Verif.Props.EmuFull
import Verif.Spec.PositFloat
import Verif.Props.PositFFull
import Verif.Model.Float16c
import Verif.Spec.NearestEven
import Verif.Spec.F16c
import Verif.Lemmas.NearestEven
import Verif.Props.Float16c
import Verif.Model.Float16cLib
import Verif.Spec.FloatLib
import Verif.Lemmas.Remainder
import Verif.Lemmas.RootHalf
import Verif.Props.Float16cLib
import Verif.Model.Simd512
import Verif.Props.Simd512
import Verif.Props.DotError
import Verif.Model.Print
import Verif.Props.Print
import Verif.Props.Loops
import Verif.Model.SoftWrap
import Verif.Props.SoftWrap
import Verif.Props.SoftExp2
import Verif.Model.Mex
import Verif.Props.Mex
import Verif.Model.TabExp2
import Verif.Spec.TabExp2
import Verif.Props.TabExp2Ex
import Verif.Props.TabExp2
import Verif.Model.Exp2t
import Verif.Spec.Exp2t
import Verif.Props.FloatUb
import Verif.Props.Exp2t
import Verif.Model.TestUnpacked
import Verif.Props.TestUnpacked
import Verif.Model.ConvTest
import Verif.Props.ConvTest
import Verif.Model.MatlabTab
import Verif.Props.MatlabTab
import Verif.Model.TestProg
import Verif.Props.TestProg
import Verif.Spec.Sort
import Verif.Props.Sort
import Verif.Model.PnumTab
import Verif.Props.PnumTab
import Verif.Model.Float12
import Verif.Spec.Directed
import Verif.Lemmas.Float12
import Verif.Props.Float12
import Verif.Model.TPosit
import Verif.Props.TPosit
import Verif.Props.TValid
import Verif.Props.Readme
import Verif.Model.EigenDot
import Verif.Props.EigenDot
import Verif.Spec.NarrowFrac
import Verif.Lemmas.NarrowFrac
import Verif.Props.NarrowFrac
import Verif.Spec.No128
import Verif.Model.No128
import Verif.Lemmas.No128
import Verif.Props.No128
import Verif.Spec.NarrowConv
import Verif.Lemmas.NarrowConv
import Verif.Props.NarrowConv
import Verif.Model.ViaFloat
import Verif.Spec.ViaFloat
import Verif.Lemmas.ViaFloat
import Verif.Props.ViaFloat
import Verif.Model.Overview
import Verif.Lemmas.Overview
import Verif.Props.Overview
import Verif.Model.PnumFun
import Verif.Spec.PnumFun
import Verif.Props.PnumFun
import Verif.Model.PnumText
import Verif.Spec.PnumText
import Verif.Props.PnumText
import Verif.Spec.PnumReal
import Verif.Lemmas.PnumReal
import Verif.Props.PnumReal
import Verif.Props.PnumMixed
import Verif.Spec.NarrowExt
import Verif.Lemmas.NarrowExt
import Verif.Props.NarrowExt
import Verif.Spec.Standard
import Verif.Lemmas.Standard
import Verif.Props.Standard
import Verif.Model.MatlabSum
import Verif.Props.MatlabSum
import Verif.Lemmas.SumFaithful
import Verif.Props.SumFaithful
import Verif.Model.FloatLimits
import Verif.Props.FloatLimits
import Verif.Model.TestEps
import Verif.Props.TestEps
import Verif.Model.Float2Bin
import Verif.Spec.Float2Bin
import Verif.Props.Float2Bin
import Verif.Props.Absorb
