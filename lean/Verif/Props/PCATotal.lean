import Verif.Props.PCARobpca
import Verif.Props.PCAMap

/-! # C159: when `ROBPCA.fit` returns a result -/

namespace Robpy
open Matrix

variable {p r : ℕ}

/-! ## The cutoff -/

theorem rpow_count (od : List ℝ) (d : ℝ) : od.count d ≤ (od.map fun d => d ^ (2 / 3 : ℝ)).count (d ^ (2 / 3 : ℝ)) := by
  induction od with
  | nil => simp
  | cons x od ih =>
    simp only [List.map_cons, List.count_cons]
    have : (if (x == d) = true then 1 else 0) ≤ (if (x ^ (2 / 3 : ℝ) == d ^ (2 / 3 : ℝ)) = true then 1 else 0) := by
      by_cases h : x = d
      · simp [h]
      · simp [h]
    omega

/-- Too many equal distances: the cutoff is NaN. -/
theorem getOdCutoff_ties (chi z : ℝ) (corrRaw : ℕ → ℕ → ℝ) (corr : ℝ → ℝ) (od : List ℝ) (hn : 3 ≤ od.length)
    (hpos : 0 < corrRaw (od.length / 2 + 1) od.length) (hcut : 1 < chi * corrRaw (od.length / 2 + 1) od.length) (d : ℝ)
    (hd : od.length / 2 + 1 ≤ od.count d) : getOdCutoff chi z corrRaw corr od = none := by
  obtain ⟨q, hq, hiff⟩ := C16_finite_iff_partial chi corrRaw corr (od.length / 2 + 1) (od.map fun d => d ^ (2 / 3 : ℝ)) (by omega)
    (by simp; omega) (by simpa using hpos) (by simpa using hcut)
  unfold getOdCutoff
  rw [hq]
  obtain ⟨rv, rl, v, l⟩ := q
  rcases v with _ | v
  · rfl
  rcases l with _ | l
  · rfl
  exfalso
  have := hiff.1 ⟨rfl, rfl⟩ (d ^ (2 / 3 : ℝ))
  have := rpow_count od d
  omega

/-- Distances that are all 0: nothing is below the cutoff. -/
theorem getOdCutoff_zero (chi z : ℝ) (corrRaw : ℕ → ℕ → ℝ) (corr : ℝ → ℝ) (n : ℕ) (c : ℝ)
    (h : getOdCutoff chi z corrRaw corr (List.replicate n 0) = some c) : c = 0 := by
  have hz : (List.replicate n (0 : ℝ)).map (fun d => d ^ (2 / 3 : ℝ)) = List.replicate n 0 := by
    rw [List.map_replicate, Real.zero_rpow (by norm_num)]
  have hmean : ∀ k, mean (List.replicate k (0 : ℝ)) = 0 := by intro k; simp [mean]
  have hvar : ∀ k, var (List.replicate k (0 : ℝ)) = 0 := by intro k; simp [var, hmean]
  unfold getOdCutoff at h
  rw [hz] at h
  unfold mcdCalculate at h
  split_ifs at h with h1
  · simp only [hvar, hmean, Real.sqrt_zero, zero_mul, add_zero, Real.zero_rpow (by norm_num : (3 / 2 : ℝ) ≠ 0)] at h
    exact (Option.some.inj h).symm
  · rcases hraw : rawEstimates ((List.replicate n (0:ℝ)).length / 2 + 1) (List.replicate n (0 : ℝ)) with _ | ⟨v, l⟩
    · rw [hraw] at h; simp at h
    · rw [hraw] at h
      simp only at h
      unfold reweighting at h
      set sel := (List.replicate n (0 : ℝ)).filter (rewMask chi l (v * corrRaw ((List.replicate n (0:ℝ)).length / 2 + 1) (List.replicate n (0 : ℝ)).length))
        with hsel
      have hs : sel = List.replicate sel.length 0 := by
        refine List.eq_replicate_iff.2 ⟨rfl, fun x hx => ?_⟩
        exact List.eq_of_mem_replicate (List.mem_of_mem_filter hx)
      simp only at h
      split_ifs at h with h2
      · simp at h
      · simp only [Option.map_some] at h
        rw [hs, hvar, hmean, zero_mul] at h
        simp only [Real.sqrt_zero, zero_mul, add_zero, Real.zero_rpow (by norm_num : (3 / 2 : ℝ) ≠ 0)] at h
        exact (Option.some.inj h).symm

/-! ## Two observations below the cutoff -/

theorem sum_filter_split (l : List ℝ) (P : ℝ → Bool) (f : ℝ → ℝ) :
    (l.map f).sum = ((l.filter P).map f).sum + ((l.filter fun x => !P x).map f).sum := by
  induction l with
  | nil => simp
  | cons x l ih =>
    simp only [List.map_cons, List.sum_cons, List.filter_cons, ih]
    by_cases h : P x = true
    · simp [h]; ring
    · simp [h]; ring

theorem sum_le_of_forall {l : List ℝ} {f : ℝ → ℝ} {c : ℝ} (h : ∀ x ∈ l, c ≤ f x) : l.length * c ≤ (l.map f).sum := by
  induction l with
  | nil => simp
  | cons x l ih =>
    simp only [List.map_cons, List.sum_cons, List.length_cons]
    push_cast
    have := ih fun y hy => h y (by simp [hy])
    have := h x (by simp)
    nlinarith

theorem sum_centered (l : List ℝ) (hl : l ≠ []) : (l.map fun x => x - mean l).sum = 0 := by
  have e : ∀ c : ℝ, (l.map fun x => x - c).sum = l.sum - l.length * c := by
    intro c
    clear hl
    induction l with
    | nil => simp
    | cons x l ih => simp only [List.map_cons, List.sum_cons, List.length_cons, ih]; push_cast; ring
  rw [e]
  have : (l.length : ℝ) ≠ 0 := by
    have := List.length_pos_iff.2 hl
    positivity
  unfold mean
  field_simp
  ring

/-- In a sample that is not constant at least two values are less than `z` standard deviations above the mean, `z > 1`. -/
theorem two_below (l : List ℝ) (hv : 0 < var l) {z s : ℝ} (hz : 1 < z) (hs : Real.sqrt (var l) ≤ s) :
    2 ≤ (l.filter fun x => decide (x < mean l + s * z)).length := by
  have hl : l ≠ [] := by
    rintro rfl
    simp [var, mean] at hv
  set P : ℝ → Bool := fun x => decide (x < mean l + s * z) with hP
  set g := Real.sqrt (var l) with hg
  have hg0 : 0 < g := Real.sqrt_pos.2 hv
  have hgv : g ^ 2 = var l := Real.sq_sqrt hv.le
  have hm : 0 < (l.length : ℝ) := by
    have := List.length_pos_iff.2 hl
    exact_mod_cast this
  have hsq : (l.map fun x => (x - mean l) ^ 2).sum = l.length * g ^ 2 := by
    rw [hgv]
    have : var l = (l.map fun x => (x - mean l) ^ 2).sum / l.length := by
      unfold var
      rw [mean.eq_def (l.map _), List.length_map]
    rw [this]
    field_simp
  have hlow : ∀ x ∈ l.filter fun x => !P x, z * g ≤ x - mean l := by
    intro x hx
    have := (List.mem_filter.1 hx).2
    simp only [hP, Bool.not_eq_true', decide_eq_false_iff_not, not_lt] at this
    nlinarith
  have hlow2 : ∀ x ∈ l.filter fun x => !P x, (z * g) ^ 2 ≤ (x - mean l) ^ 2 := by
    intro x hx
    have := hlow x hx
    have : 0 ≤ z * g := by positivity
    nlinarith
  have h1 := sum_filter_split l P fun x => x - mean l
  rw [sum_centered l hl] at h1
  have h2 := sum_filter_split l P fun x => (x - mean l) ^ 2
  rw [hsq] at h2
  have h3 := sum_le_of_forall hlow
  have h4 := sum_le_of_forall hlow2
  have hlen : l.length = (l.filter P).length + (l.filter fun x => !P x).length := by
    have := List.length_eq_length_filter_add (l := l) P
    simpa using this
  set N := (l.filter fun x => !P x).length with hN
  by_contra hc
  have hc' : (l.filter P).length ≤ 1 := by omega
  have hzg : 0 < z * g := by positivity
  rcases hf : l.filter P with _ | ⟨x0, _ | ⟨x1, t⟩⟩
  · rw [hf] at h1 hlen
    simp only [List.map_nil, List.sum_nil, zero_add, List.length_nil] at h1 hlen
    rw [← h1, ← hlen] at h3
    nlinarith
  · rw [hf] at h1 h2 hlen
    simp only [List.map_cons, List.map_nil, List.sum_cons, List.sum_nil, add_zero, List.length_cons, List.length_nil] at h1 h2 hlen
    have hNl : (l.length : ℝ) = N + 1 := by rw [hlen]; push_cast; ring
    rw [hNl] at h2
    have h5 : N * (z * g) ≤ -(x0 - mean l) := by linarith
    have h6 : (N * (z * g)) ^ 2 ≤ (x0 - mean l) ^ 2 := by
      have : 0 ≤ N * (z * g) := by positivity
      nlinarith
    rcases Nat.eq_zero_or_pos N with h0 | h0
    · have hnil : l.filter (fun x => !P x) = [] := List.length_eq_zero_iff.1 h0
      rw [hnil] at h1 h2
      rw [h0] at h2
      simp only [List.map_nil, List.sum_nil, add_zero] at h1 h2
      rw [← h1] at h2
      norm_num at h2
      exact hg0.ne' h2
    · have hN1 : (1 : ℝ) ≤ N := by exact_mod_cast h0
      have h7 : (N * (z * g)) ^ 2 + N * (z * g) ^ 2 ≤ (N + 1) * g ^ 2 := by linarith
      have h8 : (N * (z * g)) ^ 2 + N * (z * g) ^ 2 = (N * z ^ 2) * ((N + 1) * g ^ 2) := by ring
      have h9 : 1 < N * z ^ 2 := by nlinarith
      have h10 : 0 < (N + 1) * g ^ 2 := by positivity
      nlinarith
  · rw [hf] at hc'
    simp at hc'

theorem var_pos_of_ne {l : List ℝ} {x y : ℝ} (hx : x ∈ l) (hy : y ∈ l) (hxy : x ≠ y) : 0 < var l := by
  have hm : 0 < (l.length : ℝ) := by
    have := List.length_pos_of_mem hx
    exact_mod_cast this
  have h0 : ∀ t : List ℝ, ∀ u ∈ t, (u - mean l) ^ 2 ≤ (t.map fun x => (x - mean l) ^ 2).sum := by
    intro t u hu
    induction t with
    | nil => simp at hu
    | cons v t ih =>
      simp only [List.map_cons, List.sum_cons]
      have hs : 0 ≤ (t.map fun x => (x - mean l) ^ 2).sum := List.sum_nonneg fun w hw => by
        obtain ⟨a, -, rfl⟩ := List.mem_map.1 hw
        positivity
      rcases List.mem_cons.1 hu with rfl | hu
      · linarith
      · have := ih hu
        nlinarith [sq_nonneg (v - mean l)]
  unfold var
  rw [mean, List.length_map]
  refine div_pos ?_ hm
  have h1 := h0 l x hx
  have h2 := h0 l y hy
  by_contra hc
  have h3 : (x - mean l) ^ 2 = 0 := le_antisymm (by linarith) (sq_nonneg _)
  have h4 : (y - mean l) ^ 2 = 0 := le_antisymm (by linarith) (sq_nonneg _)
  have h5 := pow_eq_zero_iff (two_ne_zero) |>.1 h3
  have h6 := pow_eq_zero_iff (two_ne_zero) |>.1 h4
  exact hxy (by linarith)

/-- The raw estimates keep more than a fraction `1 - 1 / K` of the `h` values of the best window. -/
theorem mcd_selects (chi K : ℝ) (h : ℕ) (X : List ℝ) (h0 : 0 < h) (hn : h ≤ X.length) (cr : ℝ) (hcr : 0 < cr) (hK : chi * cr = K) (hK1 : 1 < K)
    (hties : ∀ x, (X.count x : ℝ) * K < h * (K - 1)) :
    ∃ v l, rawEstimates h X = some (v, l) ∧ 0 < var (X.filter (rewMask chi l (v * cr))) := by
  obtain ⟨v, l, W, e, w1, w2, w3, w4, w5⟩ := rawEstimates_spec h X h0 hn
  have hcp : (0:ℝ) < (h:ℝ) := by exact_mod_cast h0
  have h6 : ssq l W = h * v := by
    rw [← w3, popVar_eq, w2, w4]; field_simp
  have hv0 : 0 ≤ v := w3 ▸ popVar_nonneg W
  have hcount : ∀ x, W.count x ≤ X.count x := by
    intro x
    have := Multiset.count_le_of_le x w1
    simpa using this
  have hv : 0 < v := by
    refine lt_of_le_of_ne hv0 fun h => ?_
    rw [← h, mul_zero] at h6
    have h7 := ssq_eq_zero h6
    have h8 : W = Multiset.replicate _ l := Multiset.eq_replicate.2 ⟨w2, h7⟩
    have h9 := hcount l
    rw [h8, Multiset.count_replicate_self] at h9
    have h10 := hties l
    have : (_ : ℝ) ≤ X.count l := Nat.cast_le.2 h9
    nlinarith
  refine ⟨v, l, e, ?_⟩
  set M := rewMask chi l (v * cr) with hM
  have hMx : ∀ x, M x = decide ((x - l) ^ 2 < K * v) := by
    intro x
    rw [hM]
    unfold rewMask
    rw [if_neg (mul_pos hv hcr).ne', ← hK]
    congr 1
    rw [div_lt_iff₀ (mul_pos hv hcr)]
    rw [show chi * (v * cr) = chi * cr * v by ring]
  -- the part of the window that is kept
  set I := W.filter fun x => M x = true with hI
  set O := W.filter fun x => ¬ M x = true with hO
  have hIO : I + O = W := Multiset.filter_add_not _ W
  have hcard : (Multiset.card I : ℝ) + Multiset.card O = h := by
    have := congrArg Multiset.card hIO
    rw [Multiset.card_add, w2] at this
    exact_mod_cast this
  have hOs : (Multiset.card O : ℝ) * (K * v) ≤ ssq l O := by
    unfold ssq
    have := Multiset.card_nsmul_le_sum (s := O.map fun x => (x - l) ^ 2) (a := K * v) (by
      intro y hy
      obtain ⟨x, hx, rfl⟩ := Multiset.mem_map.1 hy
      have := (Multiset.mem_filter.1 hx).2
      rw [hMx, decide_eq_true_eq, not_lt] at this
      exact this)
    rwa [Multiset.card_map, nsmul_eq_mul] at this
  have hIs : 0 ≤ ssq l I := by
    unfold ssq
    refine Multiset.sum_nonneg fun y hy => ?_
    obtain ⟨x, -, rfl⟩ := Multiset.mem_map.1 hy
    positivity
  have hsum : ssq l I + ssq l O = h * v := by
    rw [← h6, ← hIO]
    unfold ssq
    rw [Multiset.map_add, Multiset.sum_add]
  have hOK : (Multiset.card O : ℝ) * K ≤ h := by
    have : (Multiset.card O : ℝ) * K * v ≤ h * v := by nlinarith
    exact le_of_mul_le_mul_right this hv
  have hIK : (h : ℝ) * (K - 1) ≤ Multiset.card I * K := by nlinarith
  by_contra hc
  have hconst : ∀ x ∈ X.filter M, ∀ y ∈ X.filter M, x = y := by
    intro x hx y hy
    by_contra hne
    exact hc (var_pos_of_ne hx hy hne)
  have hIX : ∀ x ∈ I, x ∈ X.filter M := by
    intro x hx
    obtain ⟨h1, h2⟩ := Multiset.mem_filter.1 hx
    exact List.mem_filter.2 ⟨by simpa using Multiset.mem_of_le w1 h1, h2⟩
  have hIpos : 0 < Multiset.card I := by
    by_contra h
    have : Multiset.card I = 0 := by omega
    rw [this] at hIK
    simp only [Nat.cast_zero, zero_mul] at hIK
    nlinarith
  obtain ⟨x, hx⟩ := Multiset.card_pos_iff_exists_mem.1 hIpos
  have hIrep : I = Multiset.replicate (Multiset.card I) x :=
    Multiset.eq_replicate.2 ⟨rfl, fun y hy => hconst y (hIX y hy) x (hIX x hx)⟩
  have hle : Multiset.card I ≤ X.count x := by
    have h1 : I.count x = Multiset.card I := by
      conv_lhs => rw [hIrep]
      exact Multiset.count_replicate_self _ _
    have h2 : I.count x ≤ W.count x := Multiset.count_le_of_le x (Multiset.filter_le _ W)
    have := hcount x
    omega
  have hle' : (Multiset.card I : ℝ) ≤ X.count x := by exact_mod_cast hle
  have h11 := hties x
  nlinarith

theorem rpow_inj_23 {a b : ℝ} (ha : 0 ≤ a) (hb : 0 ≤ b) (h : a ^ (2 / 3 : ℝ) = b ^ (2 / 3 : ℝ)) : a = b := by
  have := congrArg (fun t : ℝ => t ^ (3 / 2 : ℝ)) h
  simp only [← Real.rpow_mul ha, ← Real.rpow_mul hb] at this
  norm_num at this
  exact this

theorem rpow_count_eq (od : List ℝ) (h0 : ∀ d ∈ od, 0 ≤ d) (d : ℝ) (hd : 0 ≤ d) :
    (od.map fun d => d ^ (2 / 3 : ℝ)).count (d ^ (2 / 3 : ℝ)) = od.count d := by
  induction od with
  | nil => simp
  | cons x od ih =>
    simp only [List.map_cons, List.count_cons]
    rw [ih fun y hy => h0 y (by simp [hy])]
    congr 1
    by_cases h : x = d
    · simp [h]
    · have : x ^ (2 / 3 : ℝ) ≠ d ^ (2 / 3 : ℝ) := fun hc => h (rpow_inj_23 (h0 x (by simp)) hd hc)
      simp [h, this]

/-- With few equal distances the cutoff is a number and at least two observations are below it. -/
theorem getOdCutoff_two (chi z : ℝ) (corrRaw : ℕ → ℕ → ℝ) (corr : ℝ → ℝ) (od : List ℝ) (h0 : ∀ d ∈ od, 0 ≤ d) (hn : 3 ≤ od.length)
    (hpos : 0 < corrRaw (od.length / 2 + 1) od.length) (hcut : 1 < chi * corrRaw (od.length / 2 + 1) od.length)
    (hcorr : ∀ δ, 1 ≤ corr δ) (hz : 1 < z)
    (hties : ∀ d, (od.count d : ℝ) * (chi * corrRaw (od.length / 2 + 1) od.length) <
      (od.length / 2 + 1 : ℕ) * (chi * corrRaw (od.length / 2 + 1) od.length - 1)) :
    ∃ c, getOdCutoff chi z corrRaw corr od = some c ∧ 2 ≤ (od.filter fun d => decide (d < c)).length := by
  set X := od.map fun d => d ^ (2 / 3 : ℝ) with hX
  have hXl : X.length = od.length := by simp [hX]
  have ht : ∀ x, (X.count x : ℝ) * (chi * corrRaw (od.length / 2 + 1) od.length) <
      (od.length / 2 + 1 : ℕ) * (chi * corrRaw (od.length / 2 + 1) od.length - 1) := by
    intro x
    by_cases hx : x ∈ X
    · obtain ⟨d, hd, rfl⟩ := List.mem_map.1 hx
      rw [rpow_count_eq od h0 d (h0 d hd)]
      exact hties d
    · rw [List.count_eq_zero_of_not_mem hx]
      simp only [Nat.cast_zero, zero_mul]
      refine mul_pos (by positivity) (by linarith)
  obtain ⟨v, l, hraw, hvar⟩ := mcd_selects chi _ (od.length / 2 + 1) X (by omega) (by omega) _ hpos rfl hcut ht
  set sel := X.filter (rewMask chi l (v * corrRaw (od.length / 2 + 1) od.length)) with hsel
  have hne : sel.length ≠ 0 := by
    intro h
    rw [List.length_eq_zero_iff.1 h] at hvar
    simp [var, mean] at hvar
  set s := Real.sqrt (var sel * corr ((sel.length : ℝ) / od.length)) with hs
  have hs1 : Real.sqrt (var sel) ≤ s := Real.sqrt_le_sqrt (by nlinarith [hcorr ((sel.length : ℝ) / od.length)])
  refine ⟨(mean sel + s * z) ^ (3 / 2 : ℝ), ?_, ?_⟩
  · unfold getOdCutoff mcdCalculate
    rw [← hX, if_neg (by omega), hraw]
    simp only [hXl]
    unfold reweighting
    simp only [← hsel, if_neg hne, hXl, Option.map_some]
    rfl
  · have h2 := two_below sel hvar hz hs1
    have h3 : (sel.filter fun x => decide (x < mean sel + s * z)).length ≤ (X.filter fun x => decide (x < mean sel + s * z)).length :=
      (List.Sublist.filter _ (List.filter_sublist)).length_le
    rw [hX, List.filter_map, List.length_map] at h3
    refine h2.trans (h3.trans ?_)
    rw [← List.countP_eq_length_filter, ← List.countP_eq_length_filter]
    refine List.countP_mono_left fun d hd hlt => ?_
    simp only [Function.comp_apply, decide_eq_true_eq] at hlt ⊢
    have hd0 := h0 d hd
    have e : d = (d ^ (2 / 3 : ℝ)) ^ (3 / 2 : ℝ) := by rw [← Real.rpow_mul hd0]; norm_num
    rw [e]
    exact Real.rpow_lt_rpow (by positivity) hlt (by norm_num)

/-! ## The fit -/

/-- The rows `H` which `fit` keeps after the first step (scores `T` of all rows). -/
def Spec.FirstSubset (D : RobpcaDeps) (alpha : ℝ) (nComponents : Option ℕ) (T H : List (Fin r → ℝ)) : Prop :=
  ∃ out h, D.outl T = .ok out ∧ robpcaH alpha T.length nComponents = .ok h ∧
    H = takeAt T ((D.argsortExt.toFun (out.map nanLast)).take h)

/-- The orthogonal distances of the rows `T` to the first `k` eigenvectors of the covariance of the rows `H`, `od = T.map …`;
`k` is the number of components used. -/
def Spec.FirstDistances (D : RobpcaDeps) (alpha thr : ℝ) (nComponents : Option ℕ) (T : List (Fin r → ℝ)) (od : List ℝ) : Prop :=
  ∃ H w V A k, Spec.FirstSubset D alpha nComponents T H ∧ sortedEigen D H = .ok (w, V, A) ∧ pickK nComponents thr w = .ok k ∧
    od = T.map (orthDistRow (meanRow T) (V.take k))

theorem robpcaFit_distances {D : RobpcaDeps} {alpha thr : ℝ} {fin : Bool} {L : Matrix (Fin p) (Fin r) ℝ} {st st' : PCAState p}
    {X : List (Fin p → ℝ)} (h : robpcaFit D alpha thr fin L st X = .ok st') :
    ∃ od, Spec.FirstDistances D alpha thr st.nComponents (X.map fun x => (x - meanRow X) ᵥ* L) od ∧
      2 ≤ (od.filter (belowCutoff (D.odCutoff od))).length := by
  unfold robpcaFit at h
  set T := X.map fun x => (x - meanRow X) ᵥ* L with hT
  simp only at h
  rcases ho : D.outl T with e | out
  · rw [ho] at h; cases h
  rw [ho] at h
  rcases hh : robpcaH alpha X.length st.nComponents with e | hh'
  · rw [hh] at h; cases h
  rw [hh] at h
  simp only [Except.bind] at h
  rcases hc : robpcaCore D thr fin st.nComponents T (takeAt T ((D.argsortExt.toFun (out.map nanLast)).take hh')) with e | q
  · rw [hc] at h; cases h
  unfold robpcaCore at hc
  rcases hs : sortedEigen D (takeAt T ((D.argsortExt.toFun (out.map nanLast)).take hh')) with e | ⟨w, V, A⟩
  · rw [hs] at hc; cases hc
  rw [hs] at hc
  simp only [Except.bind] at hc
  rcases hk : pickK st.nComponents thr w with e | k
  · rw [hk] at hc; cases hc
  rw [hk] at hc
  simp only at hc
  refine ⟨T.map (orthDistRow (meanRow T) (V.take k)), ⟨_, w, V, A, k, ⟨out, hh', ho, by rw [← hh]; simp [hT], rfl⟩, hs, hk, rfl⟩, ?_⟩
  by_contra hlt
  have hlen : (T.filter fun x => belowCutoff (D.odCutoff (T.map (orthDistRow (meanRow T) (V.take k))))
      (orthDistRow (meanRow T) (V.take k) x)).length ≤ 1 := by
    rw [List.filter_map, List.length_map] at hlt
    have : ∀ P : (Fin r → ℝ) → Bool, ¬ 2 ≤ (T.filter P).length → (T.filter P).length ≤ 1 := fun P h => by omega
    exact this _ hlt
  have : sortedEigen D (T.filter fun x => belowCutoff (D.odCutoff (T.map (orthDistRow (meanRow T) (V.take k))))
      (orthDistRow (meanRow T) (V.take k) x)) = .error .linAlgError := by
    unfold sortedEigen
    rw [if_pos (.inr hlen)]
  rw [this] at hc
  cases hc

theorem orthDistRow_nonneg (loc : Fin p → ℝ) (C : List (Fin p → ℝ)) (x : Fin p → ℝ) : 0 ≤ orthDistRow loc C x := by
  unfold orthDistRow vecNorm
  exact Real.sqrt_nonneg _

/-- The orthogonal distance to a complete orthonormal basis is 0. -/
theorem orthDistRow_complete (loc : Fin r → ℝ) (C : List (Fin r → ℝ)) (hC : Spec.Orthonormal C) (hl : C.length = r) (x : Fin r → ℝ) :
    orthDistRow loc C x = 0 := by
  set M : Matrix (Fin r) (Fin r) ℝ := fun i j => C[(finCongr hl.symm i)] j with hM
  have h1 : M * Mᵀ = 1 := by
    ext i j
    rw [Matrix.mul_apply]
    have := orthonormal_fin hC (finCongr hl.symm i) (finCongr hl.symm j)
    refine Eq.trans this ?_
    simp [Matrix.one_apply, Fin.ext_iff]
  have h2 : Mᵀ * M = 1 := mul_eq_one_comm.1 h1
  have h3 : ∀ j, backRow C (scoresRow loc C x) j = x j - loc j := by
    intro j
    rw [backRow_scoresRow]
    rw [← Equiv.sum_comp (finCongr hl.symm)]
    have e : ∀ i : Fin r, (∑ l, (x l - loc l) * C[(finCongr hl.symm i)] l) * C[(finCongr hl.symm i)] j =
        ∑ l, (x l - loc l) * (M i l * M i j) := by
      intro i
      rw [Finset.sum_mul]
      exact Finset.sum_congr rfl fun l _ => by simp only [hM]; ring
    simp only [e]
    rw [Finset.sum_comm]
    simp only [← Finset.mul_sum]
    have e2 : ∀ l, ∑ i, M i l * M i j = if l = j then 1 else 0 := by
      intro l
      have := congrFun (congrFun h2 l) j
      rw [Matrix.mul_apply] at this
      simpa [Matrix.one_apply] using this
    simp [e2]
  unfold orthDistRow vecNorm
  simp [h3]

/-- **C159**, full statement: `fit` returns a result for at least three rows, at least two principal directions of sklearn's
`PCA`, a permitted `alpha` and a permitted number of components (constants of the consistency factors as they are). -/
def C159_statement : Prop :=
  ∀ (p r : ℕ) (S : Type) (ch : Choice S) (svd : ∀ {r : ℕ}, List (Fin r → ℝ) → Fin r → ℝ) (fresh : ℕ → S)
    (seed : Option S) (a1 : ArgSort (WithTop (WithTop ℝ))) (a2 : ArgSort ℝ)
    (eigh : ∀ {r : ℕ} (A : Matrix (Fin r) (Fin r) ℝ), EighAsc A) (chi z : ℝ) (corrRaw : ℕ → ℕ → ℝ) (corr : ℝ → ℝ)
    (mcdCov : ∀ {k : ℕ}, List (Fin k → ℝ) → Except PyErr (Matrix (Fin k) (Fin k) ℝ)) (alpha thr : ℝ)
    (st : PCAState p) (X : List (Fin p → ℝ)) (L : Matrix (Fin p) (Fin r) ℝ) (k : ℕ), Spec.PCALoadings X L → 2 ≤ r → 3 ≤ X.length →
    (∀ h n, 0 < corrRaw h n ∧ 2 < chi * corrRaw h n) → (∀ δ, 1 ≤ corr δ) → 1 < z → 0.5 ≤ alpha → alpha ≤ 1 →
    st.nComponents = some k → 1 ≤ k → k ≤ r →
    ∃ st', robpcaFit (stdDeps ch svd fresh seed a1 a2 eigh chi z corrRaw corr mcdCov) alpha thr false L st X = .ok st'

/-- **C159**: with as many components as principal directions `fit` fails on every data set: all orthogonal distances are 0 and
none is below the cutoff.  (In floating point the distances are rounding errors, and these decide.) -/
theorem C159_full (D : RobpcaDeps) (chi z : ℝ) (corrRaw : ℕ → ℕ → ℝ) (corr : ℝ → ℝ) (hD : D.odCutoff = getOdCutoff chi z corrRaw corr)
    (alpha thr : ℝ) (fin : Bool) (L : Matrix (Fin p) (Fin r) ℝ) (st : PCAState p) (X : List (Fin p → ℝ)) (k : ℕ)
    (hk : st.nComponents = some k) (hr : r ≤ k) (st' : PCAState p) : robpcaFit D alpha thr fin L st X ≠ .ok st' := by
  intro h
  obtain ⟨od, ⟨H, w, V, A, k', -, hs, hk', hod⟩, h2⟩ := robpcaFit_distances h
  rw [hk] at hk'
  obtain rfl : k = k' := by simpa [pickK] using hk'
  obtain ⟨ho, hl, -⟩ := sortedEigen_spec hs
  rw [List.take_of_length_le (by omega)] at hod
  have hz : od = List.replicate od.length 0 := by
    refine List.eq_replicate_iff.2 ⟨rfl, fun d hd => ?_⟩
    rw [hod] at hd
    obtain ⟨x, -, rfl⟩ := List.mem_map.1 hd
    exact orthDistRow_complete _ _ ho hl x
  rw [hD, hz] at h2
  have : (List.replicate od.length (0 : ℝ)).filter (belowCutoff (getOdCutoff chi z corrRaw corr (List.replicate od.length 0))) = [] := by
    rw [List.filter_eq_nil_iff]
    intro d hd
    rw [List.eq_of_mem_replicate hd]
    rcases hc : getOdCutoff chi z corrRaw corr (List.replicate od.length 0) with _ | c
    · simp [belowCutoff]
    · rw [getOdCutoff_zero _ _ _ _ _ _ hc]
      simp [belowCutoff]
  rw [this] at h2
  simp at h2

/-- **C159** (exact fit): `fit` fails if more than half of the orthogonal distances coincide, for example if more than half of
the observations lie on the subspace that the first step found. -/
theorem C159_exact_fit (D : RobpcaDeps) (chi z : ℝ) (corrRaw : ℕ → ℕ → ℝ) (corr : ℝ → ℝ) (hD : D.odCutoff = getOdCutoff chi z corrRaw corr)
    (hc : ∀ h n, 0 < corrRaw h n ∧ 2 < chi * corrRaw h n)
    (alpha thr : ℝ) (fin : Bool) (L : Matrix (Fin p) (Fin r) ℝ) (st : PCAState p) (X : List (Fin p → ℝ)) (hn : 3 ≤ X.length)
    (hties : ∀ od, Spec.FirstDistances D alpha thr st.nComponents (X.map fun x => (x - meanRow X) ᵥ* L) od →
      ∃ d, X.length / 2 + 1 ≤ od.count d) (st' : PCAState p) : robpcaFit D alpha thr fin L st X ≠ .ok st' := by
  intro h
  obtain ⟨od, hod, h2⟩ := robpcaFit_distances h
  obtain ⟨d, hd⟩ := hties od hod
  obtain ⟨H, w, V, A, k, -, -, -, rfl⟩ := hod
  have hl : ((X.map fun x => (x - meanRow X) ᵥ* L).map (orthDistRow (meanRow (X.map fun x => (x - meanRow X) ᵥ* L)) (V.take k))).length =
      X.length := by simp
  rw [hD, getOdCutoff_ties chi z corrRaw corr _ (by omega) (hc _ _).1 (by have := (hc ((X.length) / 2 + 1) X.length).2; rw [hl]; linarith) d
    (by rw [hl]; exact hd)] at h2
  have : ∀ l : List ℝ, l.filter (belowCutoff none) = [] := fun l => List.filter_eq_nil_iff.2 fun _ _ => by simp [belowCutoff]
  rw [this] at h2
  simp at h2

/-- **C159**, proved part: `fit` without the final step returns a result if no orthogonal distance of the first step occurs too
often, at most `(1 - 1 / K)` times half of the rows with `K` the reweighting cutoff of the univariate MCD (about 0.8). -/
theorem C159_general_partial {S : Type} (ch : Choice S) (svd : ∀ {r : ℕ}, List (Fin r → ℝ) → Fin r → ℝ) (fresh : ℕ → S)
    (seed : Option S) (a1 : ArgSort (WithTop (WithTop ℝ))) (a2 : ArgSort ℝ)
    (eigh : ∀ {r : ℕ} (A : Matrix (Fin r) (Fin r) ℝ), EighAsc A) (chi z : ℝ) (corrRaw : ℕ → ℕ → ℝ) (corr : ℝ → ℝ)
    (mcdCov : ∀ {k : ℕ}, List (Fin k → ℝ) → Except PyErr (Matrix (Fin k) (Fin k) ℝ)) (alpha thr : ℝ)
    (st : PCAState p) (X : List (Fin p → ℝ)) (L : Matrix (Fin p) (Fin r) ℝ) (hr : 2 ≤ r) (hn : 3 ≤ X.length)
    (hc : ∀ h n, 0 < corrRaw h n ∧ 2 < chi * corrRaw h n) (hcorr : ∀ δ, 1 ≤ corr δ) (hz : 1 < z) (ha : 0.5 ≤ alpha) (ha1 : alpha ≤ 1)
    (hties : ∀ od, Spec.FirstDistances (stdDeps ch svd fresh seed a1 a2 eigh chi z corrRaw corr mcdCov) alpha thr st.nComponents
        (X.map fun x => (x - meanRow X) ᵥ* L) od → ∀ d,
      (od.count d : ℝ) * (chi * corrRaw (X.length / 2 + 1) X.length) <
        (X.length / 2 + 1 : ℕ) * (chi * corrRaw (X.length / 2 + 1) X.length - 1)) :
    ∃ st', robpcaFit (stdDeps ch svd fresh seed a1 a2 eigh chi z corrRaw corr mcdCov) alpha thr false L st X = .ok st' := by
  set D := stdDeps ch svd fresh seed a1 a2 eigh chi z corrRaw corr mcdCov with hDdef
  set T := X.map fun x => (x - meanRow X) ᵥ* L with hT
  have hTl : T.length = X.length := by simp [hT]
  obtain ⟨out, ho, hol⟩ := stahelDonoho_ok ch svd fresh T (by omega) 250 (by norm_num) seed
  have ho' : D.outl T = .ok out := ho
  have hH : robpcaH alpha X.length st.nComponents =
      .ok (max ⌊alpha * X.length⌋₊ ((X.length + st.nComponents.getD 10 + 1) / 2)) := by
    unfold robpcaH
    rw [if_neg (by push Not; exact ⟨ha, ha1⟩)]
  set h := max ⌊alpha * (X.length : ℝ)⌋₊ ((X.length + st.nComponents.getD 10 + 1) / 2) with hh
  have hh2 : 2 ≤ h := le_trans (by omega) (le_max_right _ _)
  set H := takeAt T ((D.argsortExt.toFun (out.map nanLast)).take h) with hHdef
  have hHl : 2 ≤ H.length := by
    have hperm := D.argsortExt.perm (out.map nanLast)
    rw [List.length_map, hol] at hperm
    rw [hHdef, takeAt_length _ _ fun i hi => List.mem_range.1 (hperm.mem_iff.1 (List.mem_of_mem_take hi)), List.length_take]
    have : (D.argsortExt.toFun (out.map nanLast)).length = T.length := by
      have := hperm.length_eq
      rwa [List.length_range] at this
    omega
  obtain ⟨w, V, A, hs⟩ : ∃ w V A, sortedEigen D H = .ok (w, V, A) := by
    unfold sortedEigen
    rw [if_neg (by omega)]
    exact ⟨_, _, _, rfl⟩
  obtain ⟨-, -, hwl, -⟩ := sortedEigen_spec hs
  obtain ⟨k, hk⟩ : ∃ k, pickK st.nComponents thr w = .ok k := by
    unfold pickK
    rcases st.nComponents with _ | k
    · unfold chooseK argmaxBool
      rw [if_neg (by
        intro hc
        have := congrArg List.length hc
        simp only [cumsum, List.length_map, List.length_range, List.length_nil] at this
        omega)]
      exact ⟨_, rfl⟩
    · exact ⟨k, rfl⟩
  set od := T.map (orthDistRow (meanRow T) (V.take k)) with hod
  have hodl : od.length = X.length := by simp [hod, hTl]
  have hfirst : Spec.FirstDistances D alpha thr st.nComponents T od :=
    ⟨H, w, V, A, k, ⟨out, h, ho', by rw [hTl]; exact hH, rfl⟩, hs, hk, rfl⟩
  obtain ⟨c, hcut, h2⟩ := getOdCutoff_two chi z corrRaw corr od
    (fun d hd => by obtain ⟨x, -, rfl⟩ := List.mem_map.1 hd; exact orthDistRow_nonneg _ _ _) (by omega)
    (hc _ _).1 (by have := (hc (od.length / 2 + 1) od.length).2; linarith) hcorr hz (by rw [hodl]; exact hties od hfirst)
  have hcut' : D.odCutoff od = some c := hcut
  set T2 := T.filter fun x => belowCutoff (some c) (orthDistRow (meanRow T) (V.take k) x) with hT2
  have hT2l : 2 ≤ T2.length := by
    rw [hod, List.filter_map, List.length_map] at h2
    exact h2
  obtain ⟨w2, V2, A2, hs2⟩ : ∃ w V A, sortedEigen D T2 = .ok (w, V, A) := by
    unfold sortedEigen
    rw [if_neg (by omega)]
    exact ⟨_, _, _, rfl⟩
  unfold robpcaFit
  rw [← hT]
  simp only [ho', hH, Except.bind]
  rw [← hHdef]
  unfold robpcaCore
  rw [hs]
  simp only [Except.bind, hk]
  rw [← hod, hcut', ← hT2, hs2]
  exact ⟨_, rfl⟩

/-- **C159** is violated by the code: all three components of data with three columns cannot be asked for. -/
theorem C159_violated : ¬ C159_statement := by
  intro h
  obtain ⟨st', hst'⟩ := h 3 3 Bool c61Rng.toChoice (fun _ => 0) (fun _ => false) none (argsortStable _) (argsortStable _) eighDiag
    5 2 (fun _ _ => 1) (fun _ => 1) (fun _ => .error .valueError) 1 (4 / 5) ⟨some 3, none, none, none⟩ c93Data 1 3 c93_loadings
    (by norm_num) (by simp [c93Data]) (fun _ _ => by norm_num) (fun _ => le_rfl) (by norm_num) (by norm_num) le_rfl rfl (by norm_num) le_rfl
  exact C159_full _ 5 2 (fun _ _ => 1) (fun _ => 1) rfl _ _ _ _ _ _ 3 rfl le_rfl _ hst'

/-- The rows kept with `alpha = 1` are all rows. -/
theorem firstSubset_all {D : RobpcaDeps} {nc : Option ℕ} {T H : List (Fin r → ℝ)} (ho : ∀ out, D.outl T = .ok out → out.length = T.length)
    (h : Spec.FirstSubset D 1 nc T H) : H.Perm T := by
  obtain ⟨out, h', hout, hh, rfl⟩ := h
  have hl := ho out hout
  have hperm := D.argsortExt.perm (out.map nanLast)
  rw [List.length_map, hl] at hperm
  have hle : T.length ≤ h' := by
    unfold robpcaH at hh
    rw [if_neg (by norm_num)] at hh
    have := Except.ok.inj hh
    rw [← this]
    refine le_trans ?_ (le_max_left _ _)
    simp
  rw [List.take_of_length_le (by rw [hperm.length_eq, List.length_range]; exact hle)]
  refine (takeAt_perm T hperm).trans ?_
  rw [takeAt_range]

theorem stdDeps_outl_length {S : Type} (ch : Choice S) (svd : ∀ {r : ℕ}, List (Fin r → ℝ) → Fin r → ℝ) (fresh : ℕ → S)
    (seed : Option S) (a1 : ArgSort (WithTop (WithTop ℝ))) (a2 : ArgSort ℝ)
    (eigh : ∀ {r : ℕ} (A : Matrix (Fin r) (Fin r) ℝ), EighAsc A) (chi z : ℝ) (corrRaw : ℕ → ℕ → ℝ) (corr : ℝ → ℝ)
    (mcdCov : ∀ {k : ℕ}, List (Fin k → ℝ) → Except PyErr (Matrix (Fin k) (Fin k) ℝ)) (T : List (Fin r → ℝ)) (hT : 2 ≤ T.length)
    (out : List ExtFloat) (h : (stdDeps ch svd fresh seed a1 a2 eigh chi z corrRaw corr mcdCov).outl T = .ok out) :
    out.length = T.length := by
  obtain ⟨o, h1, h2⟩ := stahelDonoho_ok ch svd fresh T hT 250 (by norm_num) seed
  have h' : stahelDonoho ch svd fresh T 2 250 seed = .ok out := h
  rw [h1] at h'
  rw [← Except.ok.inj h']
  exact h2

/-- The distances of the run on `c93Data`. -/
theorem c93_distances (od : List ℝ) (h : Spec.FirstDistances c93Deps 1 (4 / 5) (some 2)
    (c93Data.map fun x => (x - meanRow c93Data) ᵥ* (1 : Matrix (Fin 3) (Fin 3) ℝ)) od) : od = [0, 0, 1, 1, 1, 1, 8, 8, 8, 8] := by
  have hT : (c93Data.map fun x => (x - meanRow c93Data) ᵥ* (1 : Matrix (Fin 3) (Fin 3) ℝ)) = c93Data := by
    simp [c93_mean]
  rw [hT] at h
  obtain ⟨H, w, V, A, k, hH, hs, hk, rfl⟩ := h
  have hp := firstSubset_all (fun out ho => stdDeps_outl_length _ _ _ _ _ _ _ _ _ _ _ _ _ (by simp [c93Data]) out ho) hH
  have hmono : StrictMono (![260 / 9, 1600 / 9, 3600 / 9] : Fin 3 → ℝ) := by
    intro i j hij
    fin_cases i <;> fin_cases j <;> simp at hij ⊢ <;> norm_num
  rw [sortedEigen_perm hp, sortedEigen_diag rfl (by norm_num) (by simp [c93Data]) hmono c93_cov, colsOf_one_three] at hs
  simp only [Except.ok.injEq, Prod.mk.injEq] at hs
  obtain ⟨-, rfl, -⟩ := hs
  obtain rfl : 2 = k := by simpa [pickK] using hk
  rw [c93_mean]
  simp only [List.take_succ_cons, List.take_zero, c93Data, List.map_cons, List.map_nil, orthDist_e3]
  norm_num

/-- The hypotheses of `C159_general_partial` are met by the run on `c93Data`: no distance occurs more than four times. -/
example : ∃ st', robpcaFit c93Deps 1 (4 / 5) false (1 : Matrix (Fin 3) (Fin 3) ℝ) ⟨some 2, none, none, none⟩ c93Data = .ok st' := by
  refine C159_general_partial _ _ _ _ _ _ _ _ _ _ _ _ _ _ _ _ _ (by norm_num) (by simp [c93Data]) (fun _ _ => by norm_num)
    (fun _ => le_rfl) (by norm_num) (by norm_num) le_rfl ?_
  intro od hod d
  rw [c93_distances od hod]
  have hcount : List.count d [(0:ℝ), 0, 1, 1, 1, 1, 8, 8, 8, 8] ≤ 4 := by
    by_cases h0 : d = 0
    · subst h0; simp [List.count_cons]
    by_cases h1 : d = 1
    · subst h1; simp [List.count_cons]
    by_cases h8 : d = 8
    · subst h8; simp [List.count_cons]
    · simp [List.count_cons, Ne.symm h0, Ne.symm h1, Ne.symm h8]
  have : (List.count d [(0:ℝ), 0, 1, 1, 1, 1, 8, 8, 8, 8] : ℝ) ≤ 4 := by exact_mod_cast hcount
  simp only [c93Data, List.length_cons, List.length_nil]
  norm_num
  linarith

/-- Eight observations, six of which lie on a line. -/
def c159Data : List (Fin 2 → ℝ) := [![0, 1], ![0, -1], ![0, 2], ![0, -2], ![0, 3], ![0, -3], ![1, 0], ![-1, 0]]

theorem c159_mean : meanRow c159Data = 0 := by
  funext j
  fin_cases j <;> simp [meanRow, mean, c159Data]

theorem c159_cov : npCov c159Data = Matrix.diagonal ![2 / 7, 28 / 7] := by
  ext i j
  unfold npCov
  simp only [c159_mean]
  unfold c159Data
  fin_cases i <;> fin_cases j <;> simp <;> norm_num

/-- The hypotheses of `C159_exact_fit` are met: three quarters of the observations lie on a line, and one component cannot be
computed. -/
example (st' : PCAState 2) : robpcaFit c93Deps 1 (4 / 5) false (1 : Matrix (Fin 2) (Fin 2) ℝ) ⟨some 1, none, none, none⟩ c159Data ≠
    .ok st' := by
  refine C159_exact_fit _ 5 2 (fun _ _ => 1) (fun _ => 1) rfl (fun _ _ => by norm_num) _ _ _ _ _ _ (by simp [c159Data]) ?_ _
  intro od hod
  have hT : (c159Data.map fun x => (x - meanRow c159Data) ᵥ* (1 : Matrix (Fin 2) (Fin 2) ℝ)) = c159Data := by
    simp [c159_mean]
  rw [hT] at hod
  obtain ⟨H, w, V, A, k, hH, hs, hk, rfl⟩ := hod
  have hp := firstSubset_all (fun out ho => stdDeps_outl_length _ _ _ _ _ _ _ _ _ _ _ _ _ (by simp [c159Data]) out ho) hH
  have hmono : StrictMono (![2 / 7, 28 / 7] : Fin 2 → ℝ) := by
    intro i j hij
    fin_cases i <;> fin_cases j <;> simp at hij ⊢
    norm_num
  rw [sortedEigen_perm hp, sortedEigen_diag rfl le_rfl (by simp [c159Data]) hmono c159_cov, colsOf_one_two] at hs
  simp only [Except.ok.injEq, Prod.mk.injEq] at hs
  obtain ⟨-, rfl, -⟩ := hs
  obtain rfl : 1 = k := by simpa [pickK] using hk
  refine ⟨0, ?_⟩
  rw [c159_mean]
  simp only [List.take_succ_cons, List.take_zero, c159Data, List.map_cons, List.map_nil, orthDist_e2]
  simp [List.count_cons]

end Robpy
