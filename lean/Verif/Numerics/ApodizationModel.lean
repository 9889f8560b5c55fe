import Verif.Numerics.PoissonSeriesModel

/-!
# Model of `numerics/apodization.cpp`

The apodization functions, as Poisson series over the reals.  The frequencies are given in increasing order, so the constructor of the series stores them as they are.
-/

namespace Principia.Numerics.Apodization

open Real Polynomial Principia.Numerics.Poisson

noncomputable section

/-- geometry/barycentre_calculator_body.hpp (`Barycentre`), for two instants. -/
def middle (tMin tMax : ℝ) : ℝ := tMin + (tMax - tMin) / 2

/-- The periodic terms of numerics/apodization.cpp: the polynomials are constant, that of the sine is zero. -/
def cosine (ω a : ℝ) : Term := ⟨ω, C 0, C a⟩

/-- numerics/apodization.cpp:26-32 `Dirichlet`. -/
def dirichlet (tMin tMax : ℝ) : Series :=
  ⟨middle tMin tMax, C (1), []⟩

/-- numerics/apodization.cpp:34-45 `Sine`. -/
def sine (tMin tMax : ℝ) : Series :=
  let ω := π / (tMax - tMin)
  ⟨middle tMin tMax, C (0), [cosine ω (1)]⟩

/-- numerics/apodization.cpp:47-58 `Hann`. -/
def hann (tMin tMax : ℝ) : Series :=
  let ω := 2 * π / (tMax - tMin)
  ⟨middle tMin tMax, C (0.5), [cosine ω (0.5)]⟩

/-- numerics/apodization.cpp:60-71 `Hamming`. -/
def hamming (tMin tMax : ℝ) : Series :=
  let ω := 2 * π / (tMax - tMin)
  ⟨middle tMin tMax, C (25 / 46), [cosine ω (21 / 46)]⟩

/-- numerics/apodization.cpp:73-87 `Blackman`. -/
def blackman (tMin tMax : ℝ) : Series :=
  let ω := 2 * π / (tMax - tMin)
  ⟨middle tMin tMax, C (0.42), [cosine ω (0.5), cosine (2 * ω) (0.08)]⟩

/-- numerics/apodization.cpp:89-103 `ExactBlackman`. -/
def exactBlackman (tMin tMax : ℝ) : Series :=
  let ω := 2 * π / (tMax - tMin)
  ⟨middle tMin tMax, C (3969 / 9304), [cosine ω (1155 / 2326), cosine (2 * ω) (715 / 9304)]⟩

/-- numerics/apodization.cpp:105-122 `Nuttall`. -/
def nuttall (tMin tMax : ℝ) : Series :=
  let ω := 2 * π / (tMax - tMin)
  ⟨middle tMin tMax, C (0.355768), [cosine ω (0.487396), cosine (2 * ω) (0.144232), cosine (3 * ω) (0.012604)]⟩

/-- numerics/apodization.cpp:124-141 `BlackmanNuttall`. -/
def blackmanNuttall (tMin tMax : ℝ) : Series :=
  let ω := 2 * π / (tMax - tMin)
  ⟨middle tMin tMax, C (0.3635819), [cosine ω (0.4891775), cosine (2 * ω) (0.1365995), cosine (3 * ω) (0.0106411)]⟩

/-- numerics/apodization.cpp:143-160 `BlackmanHarris`. -/
def blackmanHarris (tMin tMax : ℝ) : Series :=
  let ω := 2 * π / (tMax - tMin)
  ⟨middle tMin tMax, C (0.35875), [cosine ω (0.48829), cosine (2 * ω) (0.14128), cosine (3 * ω) (0.01168)]⟩

/-- numerics/apodization.cpp:162-186 `ISO18431_2`. -/
def iso18431_2 (tMin tMax : ℝ) : Series :=
  let ω := 2 * π / (tMax - tMin)
  ⟨middle tMin tMax, C (1 / 4.63867187), [cosine ω (1.93261719 / 4.63867187), cosine (2 * ω) (1.28613281 / 4.63867187), cosine (3 * ω) (0.38769531 / 4.63867187), cosine (4 * ω) (0.03222656 / 4.63867187)]⟩

end

end Principia.Numerics.Apodization
