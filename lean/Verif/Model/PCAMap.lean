import Verif.Model.PCA

/-! The diagnostic plot of the PCA estimators with its cutoffs. -/

namespace Robpy

/-- What `RobustPCA.plot_outlier_map` returns, robpy/pca/base.py 91-92; `odCutoff` is `none` for NaN. -/
structure OutlierMapData where
  score : List ℝ
  orth : List ℝ
  scoreCutoff : ℝ
  odCutoff : Option ℝ

/-- `RobustPCA.plot_outlier_map` with `return_distances=True`, base.py 63-92: `chi2 k` is `chi2.ppf(0.975, k)`, the other
constants are those of `getOdCutoff`.  `n_components` is a number after every fit; `None` raises TypeError.  The plot is not modelled. -/
noncomputable def plotOutlierMap {p : ℕ} (chi2 : ℕ → ℝ) (chi z : ℝ) (corrRaw : ℕ → ℕ → ℝ) (corr : ℝ → ℝ) (st : PCAState p)
    (X : List (Fin p → ℝ)) : Except PyErr OutlierMapData :=
  (outlierMap st X).bind fun (s, o) =>
    match st.nComponents with
    | none => .error .typeError
    | some k => .ok { score := s, orth := o, scoreCutoff := Real.sqrt (chi2 k), odCutoff := getOdCutoff chi z corrRaw corr o }

end Robpy
