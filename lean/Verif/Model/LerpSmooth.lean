import Verif.Model.Exp

/-!
# Model of `ext/lerp_smooth.hpp`

For `float` and `double`, with the generic `exp2` of the library (`math/expo/exp2.hpp` l.36-45: the compiler builtin and the runtime version are not
modelled).  Each operation is rounded on its own (no contraction to a fused multiply-add).
-/

namespace Verif
namespace CC

/-- `ext/lerp_smooth.hpp` l.26-31, `exp2` being `ccm::exp2<T>` -/
def lerpSmooth (f : Fmt) (exp2 : Mode → ℕ → ℕ) (m : Mode) (a b t h : ℕ) : ℕ :=
  f.hadd m b (f.hmul m (f.hsub m a b) (exp2 m (f.hdiv m (f.hneg t) h)))

/-- `lerp_smooth<double>` -/
def lerpSmoothDouble (m : Mode) (a b t h : ℕ) : ℕ := lerpSmooth binary64 exp2Double m a b t h

/-- `lerp_smooth<float>` -/
def lerpSmoothFloat (m : Mode) (a b t h : ℕ) : ℕ := lerpSmooth binary32 exp2Float m a b t h

end CC
end Verif
