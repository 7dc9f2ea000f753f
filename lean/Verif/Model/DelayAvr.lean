import Verif.Model.TextWriter
import Mathlib.Data.Rat.Floor

/-
  Model of AVR/Delay_Avr.h: `Wait` calls `_delay_ms` or `_delay_us` of avr-libc (util/delay.h), which computes a number of clock cycles in `double` and hands it to
  `__builtin_avr_delay_cycles`. That function accepts only a compile-time constant; the model is the build the library demands: optimised, the time a constant.
  util/delay.h is not part of /repo and belongs to the trusted base. `rnd` is the rounding of `double`, on AVR the 32-bit format.
-/
namespace Atl.DelayAvr

/-- util/delay.h: `__tmp = ((F_CPU) / div) * arg; (uint32_t)ceil(fabs(__tmp))`, `div` 1e3 or 1e6. The conversion of a number that is too large is undefined. -/
def delayCycles (rnd : Rat → Rat) (fcpu div : Nat) (arg : Rat) : Res Nat :=
  let tmp := rnd (rnd (rnd fcpu / div) * arg)
  if ⌈|tmp|⌉ < 2 ^ 32 then .ok ⌈|tmp|⌉.toNat else .ub

/-- `Delay<Milliseconds>::Wait` (Delay_Avr.h 38-41): the cycles waited; the `uint32_t` is converted to `double`. -/
def waitMilliseconds (rnd : Rat → Rat) (fcpu timeout : Nat) : Res Nat := delayCycles rnd fcpu 1000 (rnd timeout)
/-- `Delay<Microseconds>::Wait` (Delay_Avr.h 53-56). -/
def waitMicroseconds (rnd : Rat → Rat) (fcpu timeout : Nat) : Res Nat := delayCycles rnd fcpu 1000000 (rnd timeout)

end Atl.DelayAvr
