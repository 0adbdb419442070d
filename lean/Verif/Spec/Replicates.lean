import Verif.Model.Neighbors

/-! # Repeated measurements and their averages -/

namespace MuyGPyS
open Py

/-- `N` measurements `(X, Y, noise)` of `M` different sites: measurement `i` was made at site `site i`, every site was measured. The table `Z` lists the sites, `Ȳ` the
averages of their measurements weighted by precision (one over the noise variance), and `T` the noise variances of these averages: one over the sum of the precisions. -/
structure Averaged (N M f : Nat) (X Y noise Z Ybar T : Tensor ℝ) (site : Fin N → Fin M) : Prop where
  measured : ∀ m, ∃ i, site i = m
  points : ∀ i : Fin N, rowPt X f i = rowPt Z f (site i)
  variances : ∀ m : Fin M, T.get [m] = 1 / ∑ i with site i = m, 1 / noise.get [i]
  averages : ∀ m : Fin M, Ybar.get [m] = (∑ i with site i = m, Y.get [i] / noise.get [i]) / ∑ i with site i = m, 1 / noise.get [i]

end MuyGPyS
