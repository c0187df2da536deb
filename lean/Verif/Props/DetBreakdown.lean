import Verif.Props.MCDBreakdown
import Verif.Props.DetSets
import Verif.Props.DetWitness
import Verif.Props.Implosion
import Verif.Props.TauOneStep

/-!
# C174: DetMCD does not break down under contamination

A data set consists of good rows in general position and of outliers, which may be anywhere.  If DetMCD returns a
result, its location and covariance matrix are within bounds that depend on the good rows and on the number of outliers only.
There are no random draws, so no assumption about them is needed (compare C172).
-/

namespace Robpy
open Matrix _root_.Spec
variable {p : ℕ}

/-! ### Qn of contaminated values -/

/-- Twice the number of close pairs plus the number of values is the sum of the numbers of close values. -/
theorem close_dists {δ : ℝ} (hδ : 0 < δ) (l : List ℝ) :
    2 * (pairDists l).countP (fun d => decide (d < δ)) + l.length =
      (l.map fun x => l.countP fun y => decide (|y - x| < δ)).sum := by
  induction l with
  | nil => rfl
  | cons x l ih =>
    have e1 : (l.map fun y => |x - y|).countP (fun d => decide (d < δ)) = l.countP fun y => decide (|y - x| < δ) := by
      rw [List.countP_map]
      refine List.countP_congr fun y _ => ?_
      simp only [Function.comp, decide_eq_true_eq]
      rw [abs_sub_comm]
    have e2 : (l.map fun z => (x :: l).countP fun y => decide (|y - z| < δ)) =
        l.map fun z => (l.countP fun y => decide (|y - z| < δ)) + if |z - x| < δ then 1 else 0 := by
      refine List.map_congr_left fun z _ => ?_
      rw [List.countP_cons, abs_sub_comm x z]
      simp
    have e3 : (l.map fun z => if |z - x| < δ then 1 else 0).sum = l.countP fun y => decide (|y - x| < δ) := by
      clear ih e1 e2
      induction l with
      | nil => rfl
      | cons a l ih =>
        rw [List.map_cons, List.sum_cons, ih, List.countP_cons]
        by_cases h : |a - x| < δ <;> simp [h, add_comm]
    rw [pairDists, List.countP_append, e1, List.map_cons, List.sum_cons, e2, List.sum_map_add, e3,
      List.countP_cons, ← ih, List.length_cons]
    simp [hδ]
    ring

/-- The close pairs of contaminated values. -/
theorem close_pairs_le {δ : ℝ} (hδ : 0 < δ) {g : List ℝ} {k : ℕ} (hg : ∀ m, g.countP (fun y => decide (|y - m| < δ)) ≤ k)
    (o : List ℝ) : 2 * (pairDists (o ++ g)).countP (fun d => decide (d < δ)) + g.length + o.length ≤
      g.length * k + 2 * (o.length * k) + o.length * o.length := by
  induction o with
  | nil =>
    have h1 := close_dists hδ g
    have h2 := sum_map_le_nat g (fun x => g.countP fun y => decide (|y - x| < δ)) k fun a _ => hg a
    simp only [List.nil_append, List.length_nil]
    omega
  | cons b o ih =>
    rw [List.cons_append, pairDists, List.countP_append, List.countP_map, List.countP_append]
    have h1 : g.countP ((fun d => decide (d < δ)) ∘ fun y => |b - y|) ≤ k := by
      refine le_trans (le_of_eq ?_) (hg b)
      refine List.countP_congr fun y _ => ?_
      simp only [Function.comp, decide_eq_true_eq]
      rw [abs_sub_comm]
    have h2 : o.countP ((fun d => decide (d < δ)) ∘ fun y => |b - y|) ≤ o.length := List.countP_le_length
    rw [List.length_cons]
    nlinarith

/-- Bounds of Qn for `n` values of which a minority is arbitrary; the others are bounded, and no short interval has more than `p`
of them. -/
theorem qnNum_bounds {n : ℕ} (hn : 2 ≤ n) (hp : 1 ≤ p) : ∃ c : ℝ, 0 < c ∧ ∀ (δ R : ℝ) (x o g : List ℝ), 0 < δ → x.length = n →
    x.Perm (o ++ g) → o.length + 2 * p ≤ n / 2 → (∀ m, g.countP (fun y => decide (|y - m| < δ)) ≤ p) → (∀ y ∈ g, |y| ≤ R) →
    c * δ ≤ qnNum x ∧ qnNum x ≤ c * (2 * R) := by
  obtain ⟨c, hc, hq⟩ := qnNum_const hn
  refine ⟨c, hc, ?_⟩
  intro δ R x o g hδ hxn hx ho hg hR
  obtain ⟨v, hv, he⟩ := hq x hxn
  have hlen : n = o.length + g.length := by rw [← hxn]; simpa using hx.length_eq
  rw [he]
  constructor
  · refine mul_le_mul_of_nonneg_left ?_ hc.le
    by_contra hlt
    push Not at hlt
    have h1 : (n / 2 + 1).choose 2 ≤ (pairDists x).countP fun d => decide (d < δ) := by
      refine hv.2.trans (List.countP_mono_left fun d _ hd => ?_)
      simp only [decide_eq_true_eq] at hd ⊢
      exact lt_of_le_of_lt hd hlt
    rw [(pairDists_perm hx).countP_eq] at h1
    have h2 := close_pairs_le hδ hg o
    have h3 : 2 * (n / 2 + 1).choose 2 = (n / 2 + 1) * (n / 2) := by
      rw [Nat.choose_two_right]
      simp only [Nat.add_sub_cancel]
      have : 2 ∣ (n / 2 + 1) * (n / 2) := by
        rw [mul_comm]; exact (Nat.even_mul_succ_self _).two_dvd
      omega
    obtain ⟨H, hH⟩ : ∃ H, H = n / 2 := ⟨_, rfl⟩
    rw [← hH] at h3 ho h1
    have h4 : g.length ≤ 2 * H + 1 - o.length := by omega
    obtain ⟨q, rfl⟩ : ∃ q, p = q + 1 := ⟨p - 1, by omega⟩
    obtain ⟨t, rfl⟩ : ∃ t, H = o.length + 2 * (q + 1) + t := ⟨H - (o.length + 2 * (q + 1)), by omega⟩
    have h5 : g.length ≤ o.length + 4 * q + 2 * t + 5 := by omega
    have h6 : g.length * q ≤ (o.length + 4 * q + 2 * t + 5) * q := Nat.mul_le_mul_right _ h5
    have h7 : (o.length + 2 * (q + 1) + t + 1) * (o.length + 2 * (q + 1) + t) + o.length ≤
        g.length * q + 2 * (o.length * (q + 1)) + o.length * o.length := by
      have : g.length * (q + 1) = g.length * q + g.length := by ring
      omega
    nlinarith [Nat.zero_le (o.length * q), Nat.zero_le (q * t), Nat.zero_le (o.length * t), Nat.zero_le (t * t)]
  · refine mul_le_mul_of_nonneg_left ?_ hc.le
    obtain ⟨w, hw, -, hwR⟩ := C10_no_explosion x (by omega) (-R) (2 * R) (by
      rw [hx.countP_eq, List.countP_append]
      have : g.countP (fun x => decide (-R ≤ x ∧ x ≤ -R + 2 * R)) = g.length := by
        refine List.countP_eq_length.2 fun x hx => ?_
        have := abs_le.1 (hR x hx)
        rw [decide_eq_true_eq]
        constructor <;> linarith
      omega) (x.length * x.length + 1) (Nat.lt_succ_self _)
    obtain ⟨w', hw', hk⟩ := C01_qn_exact x (by omega) (x.length * x.length + 1) (Nat.lt_succ_self _)
    rw [hw] at hw'
    obtain rfl := Except.ok.inj (Option.some.inj hw')
    rw [hxn] at hk
    rwa [isKth_unique hv hk]

/-! ### Tau of contaminated values -/

theorem mad_ge_of_count {X : List ℝ} {δ s : ℝ} (h : ∀ m, 2 * X.countP (fun x => decide (|x - m| < δ)) < X.length)
    (hs : madRaw X = some s) : δ ≤ s := by
  obtain ⟨m, -, h2⟩ := madRaw_spec hs
  have h3 := (npMedian_half h2).1
  by_contra hlt
  push Not at hlt
  have h4 := h m
  rw [List.countP_map, List.length_map] at h3
  have h5 : X.countP ((fun x => decide (x ≤ s)) ∘ fun x => |x - m|) ≤ X.countP (fun x => decide (|x - m| < δ)) := by
    apply List.countP_mono_left
    intro x _ hx
    simp only [Function.comp, decide_eq_true_eq] at hx ⊢
    exact lt_of_le_of_lt hx hlt
  omega

/-- The Tau scale is at least a multiple of the half width of an interval without a majority. -/
theorem tau_ge_of_count (c1 c2 : ℝ) (X : List ℝ) (hne : X ≠ []) {δ : ℝ} (hδ : 0 ≤ δ)
    (h : ∀ m, 2 * X.countP (fun x => decide (|x - m| < δ)) < X.length) :
    ∃ l s, tauCalculate c1 c2 none X = .ok (l, s) ∧ δ * Real.sqrt (min (c2 ^ 2) 1 / 2) ≤ s := by
  obtain ⟨s, hs⟩ := madRaw_isSome hne
  have hle := mad_ge_of_count h hs
  have hl : (0:ℝ) < X.length := by exact_mod_cast List.length_pos_iff.2 hne
  have hs0 := madRaw_nonneg hs
  have hmn : 0 ≤ min (c2 ^ 2) 1 := le_min (by positivity) (by norm_num)
  have key : ∀ f : ℝ → ℝ, (∀ x, 0 ≤ f x) → ∀ l : ℝ, (∀ x, δ ≤ |x - l| → δ ^ 2 * min (c2 ^ 2) 1 ≤ s ^ 2 * f x) →
      δ * Real.sqrt (min (c2 ^ 2) 1 / 2) ≤ s * Real.sqrt (1 / (X.length : ℝ) * (X.map f).sum) := by
    intro f h0 l hf
    have hcount : (X.length : ℝ) ≤ 2 * (X.countP fun x => decide (δ ≤ |x - l|) : ℕ) := by
      have h1 : X.length ≤ 2 * (X.countP fun x => decide (δ ≤ |x - l|)) := by
        have h2 := List.length_eq_countP_add_countP (fun x => decide (δ ≤ |x - l|)) (l := X)
        have h3 : X.countP (fun x => decide (¬ (decide (δ ≤ |x - l|)) = true)) = X.countP (fun x => decide (|x - l| < δ)) := by
          refine List.countP_congr fun x _ => ?_
          simp only [decide_eq_true_eq, not_le]
        have := h l
        omega
      exact_mod_cast h1
    have hsum := sum_ge_countP_mul (fun x => s ^ 2 * f x) (fun x => δ ≤ |x - l|) (δ ^ 2 * min (c2 ^ 2) 1) X
      (fun x _ => mul_nonneg (sq_nonneg _) (h0 x)) fun x _ hx => hf x hx
    rw [List.sum_map_mul_left] at hsum
    have e1 : δ * Real.sqrt (min (c2 ^ 2) 1 / 2) = Real.sqrt (δ ^ 2 * (min (c2 ^ 2) 1 / 2)) := by
      rw [Real.sqrt_mul (sq_nonneg δ), Real.sqrt_sq hδ]
    have e2 : s * Real.sqrt (1 / (X.length : ℝ) * (X.map f).sum) = Real.sqrt (s ^ 2 * (1 / (X.length : ℝ) * (X.map f).sum)) := by
      rw [Real.sqrt_mul (sq_nonneg s), Real.sqrt_sq hs0]
    rw [e1, e2]
    apply Real.sqrt_le_sqrt
    have e3 : s ^ 2 * (1 / (X.length : ℝ) * (X.map f).sum) = (s ^ 2 * (X.map f).sum) / X.length := by ring
    rw [e3, le_div_iff₀ hl]
    have h6 : (X.length : ℝ) * (δ ^ 2 * min (c2 ^ 2) 1) ≤
        2 * (X.countP fun x => decide (δ ≤ |x - l|) : ℕ) * (δ ^ 2 * min (c2 ^ 2) 1) :=
      mul_le_mul_of_nonneg_right hcount (by positivity)
    linarith
  have hconst : ∀ l : ℝ, ∀ x, δ ≤ |x - l| → δ ^ 2 * min (c2 ^ 2) 1 ≤ s ^ 2 * c2 ^ 2 := by
    intro l x _
    calc δ ^ 2 * min (c2 ^ 2) 1 ≤ δ ^ 2 * c2 ^ 2 := mul_le_mul_of_nonneg_left (min_le_left _ _) (sq_nonneg _)
      _ ≤ s ^ 2 * c2 ^ 2 := mul_le_mul_of_nonneg_right (pow_le_pow_left₀ hδ hle 2) (by positivity)
  unfold tauCalculate
  rw [hs]
  simp only [tauCorrect]
  refine ⟨_, _, rfl, ?_⟩
  rcases tauLocation c1 X with _ | l
  · exact key (fun _ => c2 ^ 2) (fun _ => by positivity) 0 (hconst 0)
  · simp only
    split_ifs with hz
    · exact key (fun _ => c2 ^ 2) (fun _ => by positivity) 0 (hconst 0)
    · refine key (fun x => tauRho c2 ((x - l) / s)) (fun x => ?_) l fun x hx => ?_
      · unfold tauRho; split_ifs <;> positivity
      · unfold tauRho
        split_ifs with h1
        · have e : s ^ 2 * ((x - l) / s) ^ 2 = |x - l| ^ 2 := by rw [sq_abs]; field_simp
          rw [e]
          calc δ ^ 2 * min (c2 ^ 2) 1 ≤ δ ^ 2 * 1 := mul_le_mul_of_nonneg_left (min_le_right _ _) (sq_nonneg _)
            _ = δ ^ 2 := by ring
            _ ≤ |x - l| ^ 2 := pow_le_pow_left₀ hδ hx 2
        · exact hconst l x hx

theorem tauNum_eq {X : List ℝ} {l : Option ℝ} {s : ℝ} (corr : ℝ) (h : tauCalculate 4.5 3 none X = .ok (l, s)) :
    tauNum corr X = s / Real.sqrt corr := by
  unfold tauNum
  unfold tauCalculate at h ⊢
  rcases hm : madRaw X with _ | m
  · rw [hm] at h; cases h
  · rw [hm] at h
    have h2 := (Prod.mk.inj (Except.ok.inj h)).2
    simp only [tauCorrect] at h2 ⊢
    rw [h2]

/-- Bounds of the scales of the standardisation. -/
theorem detScale_bounds {n : ℕ} (hn : 2 ≤ n) (hp : 1 ≤ p) {corr : ℝ} (hcorr : 0 < corr) {δ : ℝ} (hδ : 0 < δ) (R : ℝ) :
    ∃ a b : ℝ, 0 < a ∧ ∀ x o g : List ℝ, x.length = n → x.Perm (o ++ g) → o.length + 2 * p ≤ n / 2 →
      (∀ m, g.countP (fun y => decide (|y - m| < δ)) ≤ p) → (∀ y ∈ g, |y| ≤ R) →
      a ≤ detScale corr n x ∧ detScale corr n x ≤ b := by
  by_cases h1000 : n < 1000
  · obtain ⟨c, hc, hq⟩ := qnNum_bounds hn hp
    refine ⟨c * δ, c * (2 * R), by positivity, fun x o g hxn hx ho hg hR => ?_⟩
    unfold detScale
    rw [if_pos h1000]
    exact hq δ R x o g hδ hxn hx ho hg hR
  · have hsc : 0 < Real.sqrt corr := Real.sqrt_pos.2 hcorr
    refine ⟨δ * Real.sqrt (min (3 ^ 2) 1 / 2) / Real.sqrt corr, 3 * (2 * R) / Real.sqrt corr, ?_, ?_⟩
    · have : (0:ℝ) < min (3 ^ 2) 1 / 2 := by norm_num
      have := Real.sqrt_pos.2 this
      positivity
    intro x o g hxn hx ho hg hR
    have hlen : n = o.length + g.length := by rw [← hxn]; simpa using hx.length_eq
    have hne : x ≠ [] := by rintro rfl; simp at hxn; omega
    unfold detScale
    rw [if_neg h1000]
    obtain ⟨l, s, hs, hle⟩ := tau_ge_of_count 4.5 3 x hne hδ.le (fun m => by
      rw [hx.countP_eq, List.countP_append]
      have h1 := List.countP_le_length (p := fun y => decide (|y - m| < δ)) (l := o)
      have h2 := hg m
      omega)
    obtain ⟨m, t, -, ht, -, -, h5⟩ := C12_breakdown x (-R) R (by
      rw [hx.countP_eq, List.countP_append]
      have : g.countP (fun x => decide (-R ≤ x ∧ x ≤ R)) = g.length := by
        refine List.countP_eq_length.2 fun x hx => ?_
        rw [decide_eq_true_eq]
        exact abs_le.1 (hR x hx)
      omega)
    obtain ⟨l', s', hs', -, hle'⟩ := C07_scale_bound 4.5 3 (by norm_num) x t ht
    rw [hs] at hs'
    obtain ⟨-, rfl⟩ := Prod.mk.inj (Except.ok.inj hs')
    rw [tauNum_eq corr hs]
    exact ⟨div_le_div_of_nonneg_right hle hsc.le, div_le_div_of_nonneg_right (by linarith) hsc.le⟩

/-! ### The standardised data -/

/-- The standardised rows, for locations and scales within bounds. -/
theorem standardised_good {δ R a b : ℝ} (hδ : 0 < δ) (ha : 0 < a) (hp : 1 ≤ p) :
    ∃ δ' R' : ℝ, 0 < δ' ∧ ∀ (m s : Fin p → ℝ) (G : List (Fin p → ℝ)), Spec.goodRows δ R G → (∀ j, |m j| ≤ |R|) →
      (∀ j, a ≤ s j ∧ s j ≤ b) → Spec.goodRows δ' R' (G.map fun x j => (x j - m j) / s j) := by
  by_cases hab : a ≤ b
  swap
  · exact ⟨1, 0, one_pos, fun m s G _ _ hs => absurd ((hs ⟨0, by omega⟩).1.trans (hs ⟨0, by omega⟩).2) hab⟩
  have hb : 0 < b := ha.trans_le hab
  refine ⟨δ / b, Real.sqrt (p * (2 * |R| / a) ^ 2), by positivity, ?_⟩
  intro m s G hG hm hs
  have hs0 : ∀ j, 0 < s j := fun j => ha.trans_le (hs j).1
  constructor
  · intro u t hu
    obtain ⟨w, hw⟩ : ∃ w : Fin p → ℝ, w = fun j => u j / s j := ⟨_, rfl⟩
    have hww : (1 / b) ^ 2 ≤ w ⬝ᵥ w := by
      have h1 : (1 / b) ^ 2 * (u ⬝ᵥ u) ≤ w ⬝ᵥ w := by
        rw [hw]
        simp only [dotProduct, Finset.mul_sum]
        refine Finset.sum_le_sum fun j _ => ?_
        have h2 : 1 / b ≤ 1 / s j := one_div_le_one_div_of_le (hs0 j) (hs j).2
        have h3 : (1 / b) ^ 2 ≤ (1 / s j) ^ 2 := pow_le_pow_left₀ (by positivity) h2 2
        have h4 := mul_le_mul_of_nonneg_right h3 (mul_self_nonneg (u j))
        have e : (1 / s j) ^ 2 * (u j * u j) = u j / s j * (u j / s j) := by ring
        linarith
      rwa [hu, mul_one] at h1
    obtain ⟨n, hn⟩ : ∃ n, n = Real.sqrt (w ⬝ᵥ w) := ⟨_, rfl⟩
    have hnb : 1 / b ≤ n := by rw [hn]; exact Real.le_sqrt_of_sq_le hww
    have hn0 : 0 < n := lt_of_lt_of_le (by positivity) hnb
    have hn2 : n * n = w ⬝ᵥ w := by rw [hn]; exact Real.mul_self_sqrt (dot_self_nonneg w)
    have h1 := hG.1 (n⁻¹ • w) ((m ⬝ᵥ w + t) / n) (by
      rw [smul_dotProduct, dotProduct_smul, ← hn2, smul_eq_mul, smul_eq_mul]
      field_simp)
    rw [List.countP_map]
    refine le_trans (List.countP_mono_left fun x _ hx => ?_) h1
    simp only [Function.comp, decide_eq_true_eq] at hx ⊢
    have e1 : (fun j => (x j - m j) / s j) ⬝ᵥ u = x ⬝ᵥ w - m ⬝ᵥ w := by
      rw [hw]
      simp only [dotProduct]
      rw [← Finset.sum_sub_distrib]
      exact Finset.sum_congr rfl fun j _ => by ring
    rw [e1] at hx
    have e2 : x ⬝ᵥ (n⁻¹ • w) - (m ⬝ᵥ w + t) / n = (x ⬝ᵥ w - m ⬝ᵥ w - t) / n := by
      rw [dotProduct_smul, smul_eq_mul]
      field_simp
      ring
    rw [e2, abs_div, abs_of_pos hn0, div_lt_iff₀ hn0]
    refine lt_of_lt_of_le hx ?_
    have := mul_le_mul_of_nonneg_left hnb hδ.le
    rwa [mul_one_div] at this
  · intro z hz
    obtain ⟨x, hx, rfl⟩ := List.mem_map.1 hz
    rw [Real.sq_sqrt (by positivity)]
    have h1 : ∀ j ∈ (Finset.univ : Finset (Fin p)), (x j - m j) / s j * ((x j - m j) / s j) ≤ (2 * |R| / a) ^ 2 := by
      intro j _
      have h2 : |x j| ≤ |R| := by
        refine abs_le_of_sq_le_sq ?_ (abs_nonneg R)
        rw [sq_abs]
        have h3 := hG.2 x hx
        have h4 : x j * x j ≤ x ⬝ᵥ x :=
          Finset.single_le_sum (f := fun i => x i * x i) (fun i _ => mul_self_nonneg _) (Finset.mem_univ j)
        nlinarith
      have h5 : |(x j - m j) / s j| ≤ 2 * |R| / a := by
        rw [abs_div, abs_of_pos (hs0 j)]
        refine div_le_div₀ (by positivity) ?_ ha (hs j).1
        exact (abs_sub _ _).trans (by linarith [hm j])
      have h6 := pow_le_pow_left₀ (abs_nonneg _) h5 2
      rw [sq_abs] at h6
      linarith [pow_two ((x j - m j) / s j)]
    have := Finset.sum_le_card_nsmul _ _ _ h1
    simpa [dotProduct] using this

/-- The rows which are bounded after the standardisation. -/
theorem unstandardised_bound {R b Q : ℝ} {m s x : Fin p → ℝ} (hQ : 0 ≤ Q) (hm : ∀ j, |m j| ≤ |R|) (hs : ∀ j, 0 < s j ∧ s j ≤ b)
    (h : (fun j => (x j - m j) / s j) ⬝ᵥ (fun j => (x j - m j) / s j) ≤ Q ^ 2) :
    x ⬝ᵥ x ≤ (Real.sqrt (p * (|R| + |b| * Q) ^ 2)) ^ 2 := by
  rw [Real.sq_sqrt (by positivity)]
  have h1 : ∀ j ∈ (Finset.univ : Finset (Fin p)), x j * x j ≤ (|R| + |b| * Q) ^ 2 := by
    intro j _
    have h2 : |(x j - m j) / s j| ≤ Q := by
      refine abs_le_of_sq_le_sq ?_ hQ
      have h4 : (x j - m j) / s j * ((x j - m j) / s j) ≤ (fun j => (x j - m j) / s j) ⬝ᵥ (fun j => (x j - m j) / s j) :=
        Finset.single_le_sum (f := fun i => (x i - m i) / s i * ((x i - m i) / s i)) (fun i _ => mul_self_nonneg _)
          (Finset.mem_univ j)
      nlinarith
    rw [abs_div, abs_of_pos (hs j).1, div_le_iff₀ (hs j).1] at h2
    have h5 : |x j| ≤ |R| + |b| * Q := by
      have h6 : |x j| ≤ |m j| + |x j - m j| := by
        have := abs_add_le (m j) (x j - m j)
        rwa [add_sub_cancel] at this
      have h7 : Q * s j ≤ Q * |b| := mul_le_mul_of_nonneg_left ((hs j).2.trans (le_abs_self b)) hQ
      linarith [hm j]
    have h6 := pow_le_pow_left₀ (abs_nonneg _) h5 2
    rw [sq_abs] at h6
    linarith [pow_two (x j)]
  have := Finset.sum_le_card_nsmul _ _ _ h1
  simpa [dotProduct] using this

/-! ### The starting estimates -/

/-- Whatever the preliminary matrix, location and scatter made from it are within bounds. -/
theorem detStart_bounds {n : ℕ} (hn : 2 ≤ n) (hp : 1 ≤ p) {δ : ℝ} (hδ : 0 < δ) (R : ℝ) :
    ∃ c C M : ℝ, 0 < c ∧ ∀ (env : DetEnv p), DetContract env → (∀ A, A.PosSemidef → (env.sqrtm A).IsSymm) →
      ∀ (Z O G : List (Fin p → ℝ)) (S : Matrix (Fin p) (Fin p) ℝ) (s : (Fin p → ℝ) × Matrix (Fin p) (Fin p) ℝ),
      Z.length = n → Z.Perm (O ++ G) → O.length + 2 * p ≤ n / 2 → Spec.goodRows δ R G → detStart env Z S = .ok s →
      s.2.IsSymm ∧ Spec.withinBounds c C M s.1 s.2 := by
  obtain ⟨q, hq, hqb⟩ := qnNum_bounds hn hp
  obtain ⟨c, hc⟩ : ∃ c, c = (q * δ) ^ 2 := ⟨_, rfl⟩
  obtain ⟨C, hC⟩ : ∃ C, C = (q * (2 * |R|)) ^ 2 := ⟨_, rfl⟩
  have hc0 : 0 < c := by rw [hc]; positivity
  have hC0 : 0 ≤ C := by rw [hC]; positivity
  refine ⟨c, C, C * (p * (R ^ 2 / c)), hc0, ?_⟩
  intro env hcon hsq Z O G S s hZn hZ hO hG hs
  have hlen : n = O.length + G.length := by rw [← hZn]; simpa using hZ.length_eq
  have horth : (detE env S)ᵀ * detE env S = 1 := rev_orth (env.eigh (lowerSym S) (lowerSym_isSymm S)).orth
  have horth' : detE env S * (detE env S)ᵀ = 1 := mul_eq_one_comm.1 horth
  have hform : ∀ v : Fin p → ℝ, c * (v ⬝ᵥ v) ≤ v ⬝ᵥ (detCov env Z S *ᵥ v) ∧ v ⬝ᵥ (detCov env Z S *ᵥ v) ≤ C * (v ⬝ᵥ v) := by
    intro v
    have hqj : ∀ j, c ≤ qnNum (column (Z.map fun z => z ᵥ* detE env S) j) ^ 2 ∧
        qnNum (column (Z.map fun z => z ᵥ* detE env S) j) ^ 2 ≤ C := by
      intro j
      have hu : (fun i => detE env S i j) ⬝ᵥ (fun i => detE env S i j) = 1 := by
        have := congrFun (congrFun horth j) j
        simpa [Matrix.mul_apply, dotProduct] using this
      have hcol : column (Z.map fun z => z ᵥ* detE env S) j = Z.map fun z => z ⬝ᵥ fun i => detE env S i j := by
        unfold column
        rw [List.map_map]
        rfl
      rw [hcol]
      have h1 := hqb δ |R| (Z.map fun z => z ⬝ᵥ fun i => detE env S i j) (O.map fun z => z ⬝ᵥ fun i => detE env S i j)
        (G.map fun z => z ⬝ᵥ fun i => detE env S i j) hδ (by simpa using hZn) (by rw [← List.map_append]; exact hZ.map _)
        (by simpa using hO) (fun t => by rw [List.countP_map]; exact hG.1 _ t hu) (fun y hy => by
          obtain ⟨z, hz, rfl⟩ := List.mem_map.1 hy
          refine abs_le_of_sq_le_sq ?_ (abs_nonneg R)
          have := dot_sq_le z fun i => detE env S i j
          rw [hu, mul_one] at this
          rw [sq_abs]
          exact this.trans (hG.2 z hz))
      rw [hc, hC]
      exact ⟨pow_le_pow_left₀ (by positivity) h1.1 2, pow_le_pow_left₀ (le_trans (by positivity) h1.1) h1.2 2⟩
    have e1 : v ⬝ᵥ v = ((detE env S)ᵀ *ᵥ v) ⬝ᵥ ((detE env S)ᵀ *ᵥ v) := by
      rw [dotProduct_mulVec, vecMul_transpose, mulVec_mulVec, horth', one_mulVec]
    have e2 : v ⬝ᵥ (detCov env Z S *ᵥ v) =
        ∑ j, qnNum (column (Z.map fun z => z ᵥ* detE env S) j) ^ 2 * (((detE env S)ᵀ *ᵥ v) j) ^ 2 := by
      unfold detCov
      simp only
      rw [← mulVec_mulVec, ← mulVec_mulVec, dotProduct_mulVec, ← mulVec_transpose]
      simp only [dotProduct, mulVec_diagonal]
      exact Finset.sum_congr rfl fun i _ => by ring
    rw [e2, e1]
    simp only [dotProduct, Finset.mul_sum]
    exact ⟨Finset.sum_le_sum fun j _ => by
        have := mul_le_mul_of_nonneg_right (hqj j).1 (sq_nonneg (((detE env S)ᵀ *ᵥ v) j))
        linarith [pow_two (((detE env S)ᵀ *ᵥ v) j)],
      Finset.sum_le_sum fun j _ => by
        have := mul_le_mul_of_nonneg_right (hqj j).2 (sq_nonneg (((detE env S)ᵀ *ᵥ v) j))
        linarith [pow_two (((detE env S)ᵀ *ᵥ v) j)]⟩
  have hpsd := detCov_posSemidef env Z S
  have hsym : (detCov env Z S).IsSymm := by
    have := hpsd.1
    rwa [Matrix.IsHermitian, Matrix.conjTranspose_eq_transpose_of_trivial] at this
  have hrs := hsq _ hpsd
  have hrr := hcon.sqrtm _ hpsd
  unfold detStart at hs
  simp only at hs
  rcases hinv : npInv (env.sqrtm (detCov env Z S)) with e | inv
  · rw [hinv] at hs; simp [Except.map] at hs
  rw [hinv] at hs
  obtain rfl := (Except.ok.inj hs).symm
  obtain ⟨hdet, rfl⟩ := npInv_ok hinv
  refine ⟨hsym, ?_, hform⟩
  obtain ⟨root, hroot⟩ : ∃ r, r = env.sqrtm (detCov env Z S) := ⟨_, rfl⟩
  rw [← hroot] at hrr hrs hdet ⊢
  simp only
  have hinvs : (root⁻¹).IsSymm := by
    unfold Matrix.IsSymm
    rw [Matrix.transpose_nonsing_inv, hrs]
  have hinv2 : root⁻¹ * root⁻¹ = (detCov env Z S)⁻¹ := by rw [← hrr, Matrix.mul_inv_rev]
  obtain ⟨-, hib⟩ := quadForm_inv_bounds hsym hc0 hform
  -- the medians of the sphered data
  obtain ⟨w, hw⟩ : ∃ w : Fin p → ℝ, w = fun j => medNum (column (Z.map fun z => z ᵥ* root⁻¹) j) := ⟨_, rfl⟩
  have hwj : ∀ j, w j * w j ≤ R ^ 2 / c := by
    intro j
    have hne : column (Z.map fun z => z ᵥ* root⁻¹) j ≠ [] := by
      intro h0
      have := congrArg List.length h0
      simp [column, hZn] at this
      omega
    obtain ⟨m, hm⟩ := npMedian_isSome hne
    have hwm : w j = m := by rw [hw]; simp only [medNum, hm, Option.getD_some]
    have hcnt := npMedian_between hm (-Real.sqrt (R ^ 2 / c)) (Real.sqrt (R ^ 2 / c)) (by
      unfold column
      rw [List.map_map, List.length_map, List.countP_map, hZ.countP_eq, List.countP_append, hZn]
      have : G.countP ((fun x => decide (-Real.sqrt (R ^ 2 / c) ≤ x ∧ x ≤ Real.sqrt (R ^ 2 / c))) ∘
          ((fun r => r j) ∘ fun z => z ᵥ* root⁻¹)) = G.length := by
        refine List.countP_eq_length.2 fun z hz => ?_
        simp only [Function.comp, decide_eq_true_eq]
        rw [← abs_le]
        refine Real.abs_le_sqrt ?_
        have h1 : (z ᵥ* root⁻¹) j * (z ᵥ* root⁻¹) j ≤ (z ᵥ* root⁻¹) ⬝ᵥ (z ᵥ* root⁻¹) :=
          Finset.single_le_sum (f := fun i => (z ᵥ* root⁻¹) i * (z ᵥ* root⁻¹) i) (fun i _ => mul_self_nonneg _)
            (Finset.mem_univ j)
        have h2 : (z ᵥ* root⁻¹) ⬝ᵥ (z ᵥ* root⁻¹) = quadForm (detCov env Z S)⁻¹ z := by
          have hv : ∀ v, v ᵥ* root⁻¹ = root⁻¹ *ᵥ v := fun v => by rw [← mulVec_transpose, hinvs]
          unfold quadForm
          rw [← hinv2, ← vecMul_vecMul, ← dotProduct_mulVec, ← hv, dotProduct_comm]
        have h3 := (hib z).1
        have h4 := div_le_div_of_nonneg_right (hG.2 z hz) hc0.le
        linarith [pow_two ((z ᵥ* root⁻¹) j)]
      omega)
    rw [hwm]
    have := Real.sq_sqrt (by positivity : 0 ≤ R ^ 2 / c)
    nlinarith [hcnt.1, hcnt.2]
  rw [← hw]
  have e : (root *ᵥ w) ⬝ᵥ (root *ᵥ w) = w ⬝ᵥ (detCov env Z S *ᵥ w) := by
    have hv : ∀ v, v ᵥ* root = root *ᵥ v := fun v => by rw [← mulVec_transpose, hrs]
    rw [← hrr, ← mulVec_mulVec, dotProduct_mulVec, hv, dotProduct_comm]
  rw [e]
  refine (hform w).2.trans (mul_le_mul_of_nonneg_left ?_ hC0)
  have := Finset.sum_le_card_nsmul (Finset.univ : Finset (Fin p)) (fun j => w j * w j) _ fun j _ => hwj j
  simpa [dotProduct] using this

/-! ### The result -/

/-- The rows of a starting set are bounded. -/
theorem detInits_rows {n : ℕ} (hn : 2 ≤ n) (hp : 1 ≤ p) {δ : ℝ} (hδ : 0 < δ) (R : ℝ) {corr : ℝ} (hcorr : 0 < corr) :
    ∃ Q : ℝ, 0 ≤ Q ∧ ∀ (env : DetEnv p), DetContract env → (∀ A, A.PosSemidef → (env.sqrtm A).IsSymm) → env.tauCorr = corr →
      ∀ (X O G : List (Fin p → ℝ)) (inits : List (List ℕ)), X.length = n → X.Perm (O ++ G) → O.length + 2 * p ≤ n / 2 →
      Spec.goodRows δ R G → detInits env X = .ok inits → ∀ idx ∈ inits, ∀ x ∈ takeAt X idx, x ⬝ᵥ x ≤ Q ^ 2 := by
  obtain ⟨a, b, ha, hab⟩ := detScale_bounds hn hp hcorr hδ |R|
  obtain ⟨δ', R', hδ', hstd⟩ := standardised_good (R := R) (b := b) hδ ha hp
  obtain ⟨c, C, M, hc, hst⟩ := detStart_bounds hn hp hδ' R'
  obtain ⟨Q, hQ, hrows⟩ := cStep_rows hp R' n C M hc
  refine ⟨Real.sqrt (p * (|R| + |b| * Q) ^ 2), Real.sqrt_nonneg _, ?_⟩
  intro env hcon hsq hco X O G inits hXn hX hO hG h idx hidx x hx
  have hlen : n = O.length + G.length := by rw [← hXn]; simpa using hX.length_eq
  unfold detInits at h
  rcases hZ : detZ env.tauCorr X with e | Z
  · rw [hZ] at h; simp [Except.bind] at h
  obtain ⟨-, -, hZe⟩ := detZ_ok hZ
  rw [hZ] at h
  simp only [Except.bind] at h
  rcases hS : detScatters env Z with e | Ss
  · rw [hS] at h; simp at h
  rw [hS] at h
  simp only at h
  rcases hss : mapExcept (detStart env Z) Ss with e | starts
  · rw [hss] at h; simp at h
  rw [hss] at h
  simp only at h
  obtain ⟨s, hs, hsi⟩ := mapExcept_mem h idx hidx
  obtain ⟨S, -, hSs⟩ := mapExcept_mem hss s hs
  -- the columns
  have hcolp : ∀ j, (column X j).Perm (column O j ++ column G j) := fun j => by
    unfold column; rw [← List.map_append]; exact hX.map _
  have hcolb : ∀ j, ∀ y ∈ column G j, |y| ≤ |R| := by
    intro j y hy
    obtain ⟨x, hx, rfl⟩ := List.mem_map.1 hy
    refine abs_le_of_sq_le_sq ?_ (abs_nonneg R)
    rw [sq_abs]
    have h4 : x j * x j ≤ x ⬝ᵥ x :=
      Finset.single_le_sum (f := fun i => x i * x i) (fun i _ => mul_self_nonneg _) (Finset.mem_univ j)
    linarith [hG.2 x hx, pow_two (x j)]
  have hsc : ∀ j, a ≤ detScale env.tauCorr X.length (column X j) ∧ detScale env.tauCorr X.length (column X j) ≤ b := by
    intro j
    rw [hXn, hco]
    refine hab _ (column O j) (column G j) (by simp [column, hXn]) (hcolp j) (by simpa [column] using hO) (fun t => ?_) (hcolb j)
    unfold column
    rw [List.countP_map]
    have := hG.1 (Pi.single j 1) t (by simp)
    simpa [Function.comp_def] using this
  have hmed : ∀ j, |medNum (column X j)| ≤ |R| := by
    intro j
    have hne : column X j ≠ [] := by
      intro h0
      have := congrArg List.length h0
      simp [column, hXn] at this
      omega
    obtain ⟨m, hm⟩ := npMedian_isSome hne
    simp only [medNum, hm, Option.getD_some]
    rw [abs_le]
    refine npMedian_between hm _ _ ?_
    have h1 : (column G j).countP (fun y => decide (-|R| ≤ y ∧ y ≤ |R|)) = (column G j).length :=
      List.countP_eq_length.2 fun y hy => by rw [decide_eq_true_eq, ← abs_le]; exact hcolb j y hy
    rw [(hcolp j).countP_eq, List.countP_append, h1]
    simp only [column, List.length_map]
    omega
  -- the standardised data
  obtain ⟨φ, hφ⟩ : ∃ φ : (Fin p → ℝ) → (Fin p → ℝ), φ = fun x j =>
    (x j - medNum (column X j)) / detScale env.tauCorr X.length (column X j) := ⟨_, rfl⟩
  have hZφ : Z = X.map φ := by rw [hφ]; exact hZe
  have hG' : Spec.goodRows δ' R' (G.map φ) := by rw [hφ]; exact hstd _ _ G hG hmed hsc
  have hZp : Z.Perm (O.map φ ++ G.map φ) := by rw [hZφ, ← List.map_append]; exact hX.map _
  have hZn : Z.length = n := by rw [hZφ, List.length_map, hXn]
  obtain ⟨hsym, hb⟩ := hst env hcon hsq Z (O.map φ) (G.map φ) S s hZn hZp (by simpa using hO) hG' hSs
  unfold detIndices at hsi
  rcases hd : sqMahalanobis Z s.1 s.2 with e | d
  · rw [hd] at hsi; simp [Except.map] at hsi
  rw [hd] at hsi
  obtain rfl := (Except.ok.inj hsi).symm
  obtain ⟨-, rfl⟩ := sqMahalanobis_ok hd
  have hz := hrows env.srt Z (O.map φ) (G.map φ) ((Z.length + 1) / 2) s.1 s.2 hG'.2 hZp (by rw [List.length_map]; omega) (by omega)
    hsym hb (φ x) (by
      rw [hZφ] at hx ⊢
      rw [takeAt_map]
      exact List.mem_map_of_mem hx)
  rw [hφ] at hz
  exact unstandardised_bound hQ hmed (fun j => ⟨ha.trans_le (hsc j).1, (hsc j).2⟩) hz

/-- **C174**: a result of DetMCD on contaminated data is within bounds that depend on the good rows, on the number of
outliers and on the settings only. -/
theorem C174_fit (hp : 1 ≤ p) (G : List (Fin p → ℝ)) (hG : Spec.RowsInGeneralPosition G) (m : ℕ) (corr : ℝ) (cfg : MCDConfig ℝ)
    (hcr : cfg.correct = true ∨ cfg.reweighting = false) (hchi : 0 < cfg.chi50) (hchi2 : cfg.chi50 < cfg.chi975)
    (hgam : 0 < cfg.gammaFactor) (htol : 0 < cfg.tol) :
    ∃ c C M : ℝ, 0 < c ∧ ∀ (env : DetEnv p), DetContract env → (∀ A, A.PosSemidef → (env.sqrtm A).IsSymm) → env.tauCorr = corr →
      ∀ (X O : List (Fin p → ℝ)) (fuel h : ℕ) (fit : CovFit ℝ (Fin p)), X.Perm (O ++ G) → O.length = m →
      alphaIsAll cfg.alpha X.length = false → mcdGetH cfg.alpha X.length p = .ok h →
      O.length + 2 * p ≤ X.length / 2 → O.length + p + 1 ≤ h → h ≤ G.length →
      detFit env cfg X fuel = some (.ok fit) → Spec.withinBounds c C M fit.location fit.covariance := by
  by_cases hdef : 0 < corr ∧ m + 2 * p ≤ (m + G.length) / 2
  swap
  · refine ⟨1, 0, 0, one_pos, ?_⟩
    intro env hcon _ hco X O fuel h fit hX hm _ _ hO
    have hlen : X.length = O.length + G.length := by simpa using hX.length_eq
    exact absurd ⟨hco ▸ hcon.tau, by rw [← hm, ← hlen]; exact hO⟩ hdef
  obtain ⟨hcorr, hmG⟩ := hdef
  obtain ⟨δ, R, hδ, hg⟩ := goodRows_exists hG
  obtain ⟨n, hn⟩ : ∃ n, n = m + G.length := ⟨_, rfl⟩
  obtain ⟨Q, hQ, hrows⟩ := detInits_rows (n := n) (by omega) hp hδ R hcorr
  obtain ⟨c0, C0, M0, hc0, hb0⟩ := subset_bounds hp hδ R n ((8 * Q ^ 2) ^ p)
  obtain ⟨D, hD⟩ := steps_det hp R n C0 M0 hc0
  obtain ⟨c1, C1, M1, hc1, hb1⟩ := subset_bounds hp hδ R n D
  obtain ⟨c, C, M, hc, hb⟩ := postProcess_bounds (C := C1) (M := M1) hp hδ R n cfg hc1 hcr hchi hchi2 hgam
  refine ⟨c, C, M, hc, ?_⟩
  intro env hcon hsq hco X O fuel h fit hX hm hall hh hO hOh hhG hfit
  have hlen : X.length = O.length + G.length := by simpa using hX.length_eq
  obtain ⟨inits, ss, s, hin, hf, hs, -, hpp⟩ := C156_result htol (by rw [hall]; simp) hfit
  obtain ⟨-, hidx⟩ := detInits_ok hin
  obtain ⟨idx, hidxm, s0, hs0, hst⟩ : ∃ idx ∈ inits, ∃ s0, getSubset X idx 0 = .ok s0 ∧ cStep env.srt cfg.alpha X s0 = .ok s := by
    clear hpp hfit hidx hin
    induction hf with
    | nil => simp at hs
    | cons ha _ ih =>
      rcases List.mem_cons.1 hs with rfl | hs
      · exact ⟨_, by simp, ha⟩
      · obtain ⟨i, hi, h⟩ := ih hs
        exact ⟨i, by simp [hi], h⟩
  obtain ⟨hnd, hlt, hil⟩ := hidx idx hidxm
  have hbd := hrows env hcon hsq hco X O G inits (by omega) hX (by omega) hg hin idx hidxm
  have hsl : (takeAt X idx).length = (X.length + 1) / 2 := by rw [takeAt_length _ _ hlt, hil]
  have hsub := (takeAt_subperm X idx hnd hlt).trans hX.subperm
  have hw0 := hb0 G O _ hg hsub (by omega) (by omega)
    (det_le_of_form (npCov_posSemidef _) fun v => npCov_form_le hQ (by omega) hbd v)
  obtain ⟨-, rfl⟩ := getSubset_ok hs0
  have hsD := hD env.srt cfg.alpha X O G h 1 _ s hg.2 hX (by omega) hhG (by omega) hh (npCov_isSymm _) hw0 le_rfl (by
    unfold multiCSteps
    rw [hst]
    rfl)
  obtain ⟨e1, e2, e3, e4, e5⟩ := stepped_rows hX hhG hh ⟨_, hst⟩
  have hw1 := hb1 G O _ hg e1 (by omega) (by omega) (by rw [← e5]; exact hsD)
  rw [← e3, ← e4] at hw1
  obtain ⟨fit', hfit', -, hfb⟩ := hb X O G s hg hX (by omega) (by omega) (by rw [e4]; exact npCov_isSymm _) hw1
  rw [hpp] at hfit'
  obtain rfl := Except.ok.inj hfit'
  exact hfb

/-! ### The fit succeeds -/

/-- Contaminated rows are regular. -/
theorem contaminated_regular (hp : 1 ≤ p) {X O G : List (Fin p → ℝ)} (hG : Spec.RowsInGeneralPosition G) (hX : X.Perm (O ++ G))
    (hO : O.length + 2 * p ≤ X.length / 2) : RegularRows X := by
  have hlen : X.length = O.length + G.length := by simpa using hX.length_eq
  obtain ⟨δ, R, hδ, hg⟩ := goodRows_exists hG
  obtain ⟨c, hc, hq⟩ := qnNum_bounds (n := X.length) (by omega) hp
  intro v hv
  obtain ⟨n, hn⟩ : ∃ n, n = Real.sqrt (v ⬝ᵥ v) := ⟨_, rfl⟩
  have hn0 : 0 < n := by rw [hn]; exact Real.sqrt_pos.2 (dot_self_pos hv)
  have hn2 : n * n = v ⬝ᵥ v := by rw [hn]; exact Real.mul_self_sqrt (dot_self_nonneg v)
  refine ⟨?_, fun t => ?_⟩
  · refine lt_of_lt_of_le (by positivity : 0 < c * (δ * n)) (hq (δ * n) (|R| * n) (X.map fun x => x ⬝ᵥ v) (O.map fun x => x ⬝ᵥ v)
      (G.map fun x => x ⬝ᵥ v) (by positivity) (by simp) (by rw [← List.map_append]; exact hX.map _) (by simpa using hO)
      (fun t => ?_) fun y hy => ?_).1
    · rw [List.countP_map]
      refine le_trans (List.countP_mono_left fun x _ hx => ?_) (hg.1 (n⁻¹ • v) (t / n) (by
        rw [smul_dotProduct, dotProduct_smul, ← hn2, smul_eq_mul, smul_eq_mul]
        field_simp))
      simp only [Function.comp, decide_eq_true_eq] at hx ⊢
      have e : x ⬝ᵥ (n⁻¹ • v) - t / n = (x ⬝ᵥ v - t) / n := by
        rw [dotProduct_smul, smul_eq_mul]
        field_simp
      rw [e, abs_div, abs_of_pos hn0, div_lt_iff₀ hn0]
      exact hx
    · obtain ⟨x, hx, rfl⟩ := List.mem_map.1 hy
      refine abs_le_of_sq_le_sq ?_ (by positivity)
      rw [mul_pow, sq_abs, pow_two n, hn2]
      exact (dot_sq_le x v).trans (mul_le_mul_of_nonneg_right (hg.2 x hx) (dot_self_nonneg v))
  · rw [hX.countP_eq, List.countP_append]
    have h1 := List.countP_le_length (p := fun z => decide (z ⬝ᵥ v = t)) (l := O)
    have h2 := hG v hv t
    omega

/-- **C174**: on contaminated data DetMCD returns a result exactly when no row consists of the medians of the columns (compare C132). -/
theorem C174_returns (hp : 2 ≤ p) (env : DetEnv p) (hcon : DetContract env) (cfg : MCDConfig ℝ)
    (hcr : cfg.correct = true ∨ cfg.reweighting = false) (hchi : 0 < cfg.chi50) (hchi2 : cfg.chi50 < cfg.chi975)
    (hgam : 0 < cfg.gammaFactor) (htol : 0 < cfg.tol) {X O G : List (Fin p → ℝ)} (hG : Spec.RowsInGeneralPosition G)
    (hX : X.Perm (O ++ G)) (hall : alphaIsAll cfg.alpha X.length = false) {h : ℕ} (hh : mcdGetH cfg.alpha X.length p = .ok h)
    (hO : O.length + 2 * p ≤ X.length / 2) (hOh : O.length + p + 1 ≤ h) (hhG : h ≤ G.length) (fuel : ℕ) :
    (∃ fit, detFit env cfg X (fuel + 1) = some (.ok fit)) ↔ ∀ x ∈ X, ¬ Spec.IsMedianRow X x := by
  constructor
  · rintro ⟨fit, hfit⟩ x hx hm
    obtain ⟨e, he⟩ := C132_median_row env cfg hall hx hm (fuel + 1)
    rw [he] at hfit
    simp at hfit
  intro h0
  have hlen : X.length = O.length + G.length := by simpa using hX.length_eq
  have hcard : Fintype.card (Fin p) ≠ 1 := by rw [Fintype.card_fin]; omega
  have hk : mcdGetH cfg.alpha X.length (Fintype.card (Fin p)) = .ok h := by rw [Fintype.card_fin]; exact hh
  obtain ⟨inits, hin, hne⟩ := detInits_regular env hcon (contaminated_regular (by omega) hG hX hO) hp h0
  obtain ⟨-, hidx⟩ := detInits_ok hin
  have hstep : ∀ idx ∈ inits, ∃ s, (getSubset X idx 0).bind (cStep env.srt cfg.alpha X) = .ok s := by
    intro idx hi
    obtain ⟨n1, n2, n3⟩ := hidx idx hi
    rw [getSubset_eq hcard]
    simp only [Except.bind]
    rw [cStep_eq (subset_det_ne_zero (by omega) hG ((takeAt_subperm X idx n1 n2).trans hX.subperm) (by
      rw [takeAt_length _ _ n2, n3]; omega)) hk, getSubset_eq hcard]
    exact ⟨_, rfl⟩
  obtain ⟨ss, hss⟩ := mapExcept_all_ok inits hstep
  have hstepped : ∀ s ∈ ss, Stepped env.srt cfg.alpha X s := by
    intro s hs
    obtain ⟨idx, -, he⟩ := mapExcept_mem hss s hs
    rw [getSubset_eq hcard] at he
    exact ⟨_, he⟩
  have hssne : ss ≠ [] := by
    rintro rfl
    have := (mapExcept_ok hss).length_eq
    simp at this
    exact hne this
  obtain ⟨s0, rest, rfl⟩ := List.exists_cons_of_ne_nil hssne
  obtain ⟨r, hr⟩ := convergeAll_total htol fuel (fun s hs => by
    obtain ⟨e1, e2, -, e4, -⟩ := stepped_rows hX hhG hh hs
    rw [e4]
    exact subset_det_ne_zero (by omega) hG e1 (by omega)) (s0 :: rest) hstepped s0
  have hr' : convergeFrom env.srt cfg.alpha cfg.tol X (fuel + 1) (s0 :: rest) = some (.ok r) := hr
  have hmem := (convergeFrom_stepped htol _ _ _ hstepped hr').1
  obtain ⟨e1, e2, e3, e4, e5⟩ := stepped_rows hX hhG hh (hstepped r hmem)
  obtain ⟨δ, R, hδ, hg⟩ := goodRows_exists hG
  obtain ⟨c1, C1, M1, hc1, hb1⟩ := subset_bounds (p := p) (by omega) hδ R X.length (npCov (takeAt X r.indices)).det
  have hw1 := hb1 G O _ hg e1 (by omega) (by omega) le_rfl
  rw [← e3, ← e4] at hw1
  obtain ⟨_, _, _, _, hb⟩ := postProcess_bounds (p := p) (by omega) hδ R X.length cfg hc1 hcr hchi hchi2 hgam
  obtain ⟨fit, hfit, -⟩ := hb X O G r hg hX (by omega) le_rfl (by rw [e4]; exact npCov_isSymm _) hw1
  refine ⟨fit, ?_⟩
  unfold detFit
  rw [hall]
  simp only [Bool.false_eq_true, if_false]
  rw [hin]
  simp only [Run.andThen]
  unfold detMCD
  rw [hall]
  simp only [Bool.false_eq_true, if_false]
  rw [hss]
  simp only [Run.andThen]
  rw [hr']
  simp only
  rw [hfit]

/-- **C174** for the default `alpha` and the default post processing: fewer than half of the rows, less `2p`, may be outliers. -/
theorem C174_default (hp : 2 ≤ p) (G : List (Fin p → ℝ)) (hG : Spec.RowsInGeneralPosition G) (m : ℕ) (corr : ℝ) (cfg : MCDConfig ℝ)
    (halpha : cfg.alpha = .none) (hcorrect : cfg.correct = true) (hchi : 0 < cfg.chi50) (hchi2 : cfg.chi50 < cfg.chi975)
    (hgam : 0 < cfg.gammaFactor) (htol : 0 < cfg.tol) :
    ∃ c C M : ℝ, 0 < c ∧ ∀ (env : DetEnv p), DetContract env → (∀ A, A.PosSemidef → (env.sqrtm A).IsSymm) → env.tauCorr = corr →
      ∀ (X O : List (Fin p → ℝ)) (fuel : ℕ), X.Perm (O ++ G) → O.length = m → O.length + 2 * p ≤ X.length / 2 →
      (∀ x ∈ X, ¬ Spec.IsMedianRow X x) →
      ∃ fit, detFit env cfg X (fuel + 1) = some (.ok fit) ∧ Spec.withinBounds c C M fit.location fit.covariance := by
  obtain ⟨c, C, M, hc, hb⟩ := C174_fit (by omega) G hG m corr cfg (Or.inl hcorrect) hchi hchi2 hgam htol
  refine ⟨c, C, M, hc, ?_⟩
  intro env hcon hsq hco X O fuel hX hm hO h0
  have hlen : X.length = O.length + G.length := by simpa using hX.length_eq
  have hall : alphaIsAll cfg.alpha X.length = false := by rw [halpha]; rfl
  have hh : mcdGetH cfg.alpha X.length p = .ok ((X.length + p + 1) / 2) := by rw [halpha]; rfl
  obtain ⟨fit, hfit⟩ := (C174_returns hp env hcon cfg (Or.inl hcorrect) hchi hchi2 hgam htol hG hX hall hh hO (by omega) (by omega)
    fuel).2 h0
  exact ⟨fit, hfit, hb env hcon hsq hco X O (fuel + 1) _ fit hX hm hall hh hO (by omega) (by omega) hfit⟩

/-! ### Cases that meet the hypotheses -/

theorem sqrtSpectral_isSymm (A : Matrix (Fin p) (Fin p) ℝ) : (sqrtSpectral A).IsSymm := by
  unfold sqrtSpectral
  split_ifs with h
  · unfold Matrix.IsSymm
    rw [Matrix.transpose_mul, Matrix.transpose_mul, Matrix.transpose_transpose, Matrix.diagonal_transpose, Matrix.mul_assoc]
  · exact Matrix.isSymm_zero

/-- Good rows on a parabola. -/
noncomputable def c174Good : List (Fin 2 → ℝ) := ([0, 1, 2, 3, 4, 5, 6, 7, 8] : List ℝ).map fun t => ![t, t ^ 2]

theorem c174_gp : Spec.RowsInGeneralPosition c174Good := parabola_gp _ (by norm_num)

theorem c174_median {t : ℝ} (ht : 100 < t) : ∀ x ∈ ![t, t] :: c174Good, ¬ Spec.IsMedianRow (![t, t] :: c174Good) x := by
  have h0 : npMedian ((![t, t] :: c174Good).map fun y => y 0) = some (9 / 2) := by
    simp only [c174Good, List.map_cons, List.map_nil]
    rw [npMedian_eq_some_iff]
    refine ⟨4, 5, ?_, ?_, by norm_num⟩ <;>
    · unfold Spec.IsKthSmallest
      have a1 : ¬ t < 4 := by linarith
      have a2 : ¬ t ≤ 4 := by linarith
      have a3 : ¬ t < 5 := by linarith
      have a4 : ¬ t ≤ 5 := by linarith
      norm_num [List.countP_cons, a1, a2, a3, a4]
  intro x hx hm
  have h1 := hm 0
  rw [h0] at h1
  have h1 := Option.some.inj h1
  rcases List.mem_cons.1 hx with rfl | hx
  · simp at h1; linarith
  · simp only [c174Good, List.mem_map] at hx
    obtain ⟨a, ha, rfl⟩ := hx
    simp at h1 ha
    rcases ha with rfl | rfl | rfl | rfl | rfl | rfl | rfl | rfl | rfl <;> norm_num at h1

/-- C174 on nine rows of a parabola and an arbitrarily distant outlier: the same bounds for every outlier. -/
example : ∃ c C M : ℝ, 0 < c ∧ ∀ t : ℝ, 100 < t → ∃ fit, detFit (detEnvSpectral 2) c132Cfg (![t, t] :: c174Good) 1 = some (.ok fit) ∧
    Spec.withinBounds c C M fit.location fit.covariance := by
  obtain ⟨c, C, M, hc, h⟩ := C174_default le_rfl c174Good c174_gp 1 1 c132Cfg rfl rfl (by norm_num [c132Cfg]) (by norm_num [c132Cfg])
    (by norm_num [c132Cfg]) (by norm_num [c132Cfg])
  refine ⟨c, C, M, hc, fun t ht => ?_⟩
  exact h (detEnvSpectral 2) (detEnvSpectral_contract 2) (fun A _ => sqrtSpectral_isSymm A) rfl _ [![t, t]] 0 (List.Perm.refl _) rfl
    (by simp [c174Good]) (c174_median ht)

end Robpy
