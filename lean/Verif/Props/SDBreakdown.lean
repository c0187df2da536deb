import Verif.Props.Outlyingness
import Verif.Props.OGKBreakdown
import Verif.Props.PCARobpca
import Verif.Props.DetWitness

/-! # Property C181: the Stahel-Donoho outlyingness under contamination -/

namespace Robpy
open Matrix

variable {p : ℕ}

/-- Specification: in one of the draws the two rows at the positions `i` and `j` were drawn, in some order. -/
def Spec.drawnTogether {S : Type} (ch : Choice S) (seeds : ℕ → S) (n nDir i j : ℕ) : Prop :=
  ∃ k < nDir, ch.pick (seeds k) n 2 = [i, j] ∨ ch.pick (seeds k) n 2 = [j, i]

/-- The largest of a non-empty list of numbers is a number. -/
theorem extMax_real (l : List ExtFloat) (hne : l ≠ []) (h : ∀ v ∈ l, ∃ r : ℝ, v = some (r : WithTop ℝ)) :
    ∃ r : ℝ, extMax l = some (r : WithTop ℝ) := by
  induction l with
  | nil => exact absurd rfl hne
  | cons a l ih =>
    obtain ⟨r, rfl⟩ := h a (by simp)
    rcases l with _ | ⟨b, l⟩
    · exact ⟨r, rfl⟩
    obtain ⟨r', hr'⟩ := ih (by simp) fun v hv => h v (List.mem_cons_of_mem _ hv)
    refine ⟨max r r', ?_⟩
    rw [extMax, hr']
    simp [extMax2]

/-- The scores along given unit vectors: numbers, bounded on the good rows, and at least the standardised distance. -/
theorem sd_directions (hp : 0 < p) (G : List (Fin p → ℝ)) (hG : Spec.RowsInGeneralPosition G) :
    ∃ B R s₁ : ℝ, 0 < R ∧ 0 < s₁ ∧ (∀ x ∈ G, x ⬝ᵥ x ≤ R ^ 2) ∧ ∀ X O : List (Fin p → ℝ), X.Perm (O ++ G) →
      O.length + p ≤ X.length / 2 → ∀ D : List (Option (Fin p → ℝ)), D ≠ [] → (∀ d ∈ D, ∃ u, d = some u ∧ u ⬝ᵥ u = 1) →
        ∀ (i : ℕ) x, X[i]? = some x → ∃ v : ℝ, (sdFromDirections X D)[i]? = some (some (v : WithTop ℝ)) ∧
          (x ∈ G → v ≤ B) ∧ ∀ u, some u ∈ D → (|x ⬝ᵥ u| - R) / s₁ ≤ v := by
  obtain ⟨A, B, L, hA, hB, hL, hb⟩ := directions_bounded hp G hG
  obtain ⟨R₀, hR₀, hrows⟩ := rows_bounded G
  set s₀ := Real.sqrt A with hs₀
  set s₁ := Real.sqrt B with hs₁
  set R := R₀ + Real.sqrt L with hR
  have hsL := Real.sqrt_nonneg L
  have hs₀p : 0 < s₀ := Real.sqrt_pos.2 hA
  have hs₁p : 0 < s₁ := Real.sqrt_pos.2 hB
  refine ⟨2 * R / s₀, R, s₁, by positivity, hs₁p, fun x hx => (hrows x hx).trans (by nlinarith), ?_⟩
  intro X O hX hO D hD hunit i x hx
  obtain ⟨hsc, hloc⟩ := hb X O hX hO
  have hne : X ≠ [] := by rintro rfl; simp at hx
  have hi : i < X.length := (List.getElem?_eq_some_iff.1 hx).1
  have key : ∀ u : Fin p → ℝ, u ⬝ᵥ u = 1 → ∃ m s : ℝ, npMedian (X.map fun y => ∑ j, y j * u j) = some m ∧
      madRaw (X.map fun y => ∑ j, y j * u j) = some s ∧ |m| ≤ R ∧ s₀ ≤ s ∧ s ≤ s₁ := by
    intro u hu
    have hne' : (X.map fun y => ∑ j, y j * u j) ≠ [] := by simpa using hne
    obtain ⟨m, hm⟩ := npMedian_isSome hne'
    obtain ⟨s, hs⟩ := madRaw_isSome hne'
    have h1 := hsc u
    have h2 := hloc u
    rw [hu, mul_one, mul_one] at h1
    rw [hu, mul_one] at h2
    rw [show (X.map fun x => x ⬝ᵥ u) = X.map fun y => ∑ j, y j * u j from rfl] at h1
    simp only [hs, Option.getD_some] at h1
    rw [show (X.map fun x => x ⬝ᵥ u) = X.map fun y => ∑ j, y j * u j from rfl] at h2
    simp only [hm, Option.getD_some] at h2
    have hs0 := madRaw_nonneg hs
    refine ⟨m, s, hm, hs, ?_, Real.sqrt_le_iff.2 ⟨hs0, h1.1⟩, Real.le_sqrt_of_sq_le h1.2⟩
    have := Real.abs_le_sqrt h2
    linarith
  have hval : ∀ d ∈ D, ∃ (u : Fin p → ℝ) (r m s : ℝ), d = some u ∧ u ⬝ᵥ u = 1 ∧ (sdColumn X d).getD i none = some (r : WithTop ℝ) ∧
      r = |x ⬝ᵥ u - m| / s ∧ |m| ≤ R ∧ s₀ ≤ s ∧ s ≤ s₁ := by
    intro d hd
    obtain ⟨u, rfl, hu⟩ := hunit d hd
    obtain ⟨m, s, h1, h2, h3, h4, h5⟩ := key u hu
    refine ⟨u, _, m, s, rfl, hu, ?_, rfl, h3, h4, h5⟩
    rw [sdColumn, sdScores, h1, h2]
    simp only
    rw [List.map_map, List.getD_eq_getElem?_getD, List.getElem?_map, hx]
    simp only [Option.map_some, Option.getD_some, Function.comp]
    rw [extDiv, if_neg (by linarith)]
    rfl
  obtain ⟨v, hv⟩ := extMax_real (D.map fun d => (sdColumn X d).getD i none) (by simpa using hD) (by
    intro w hw
    obtain ⟨d, hd, rfl⟩ := List.mem_map.1 hw
    obtain ⟨u, r, m, s, -, -, h, -⟩ := hval d hd
    exact ⟨r, h⟩)
  obtain ⟨hin, hmax⟩ := extMax_spec _ _ hv
  refine ⟨v, ?_, ?_, ?_⟩
  · unfold sdFromDirections
    rw [List.getElem?_map, List.getElem?_range hi, Option.map_some, hv]
  · intro hxG
    obtain ⟨d, hd, hdv⟩ := List.mem_map.1 hin
    obtain ⟨u, r, m, s, rfl, hu, h1, h2, h3, h4, h5⟩ := hval d hd
    rw [h1] at hdv
    have hrv : r = v := by exact_mod_cast Option.some.inj hdv
    rw [← hrv, h2]
    have hxu : |x ⬝ᵥ u| ≤ R₀ := by
      refine abs_le_of_sq_le_sq ?_ hR₀.le
      have := dot_sq_le x u
      rw [hu, mul_one] at this
      exact this.trans (hrows x hxG)
    have : |x ⬝ᵥ u - m| ≤ 2 * R := by
      have := abs_sub (x ⬝ᵥ u) m
      linarith
    gcongr
  · intro u hu
    obtain ⟨u', r, m, s, e, -, h1, h2, h3, h4, h5⟩ := hval _ hu
    obtain rfl := Option.some.inj e
    obtain ⟨w, hw, hle⟩ := hmax _ (List.mem_map.2 ⟨_, hu, rfl⟩)
    rw [h1] at hw
    obtain rfl := Option.some.inj hw
    have hle : r ≤ v := by exact_mod_cast hle
    refine le_trans ?_ hle
    rw [h2]
    have h6 : |x ⬝ᵥ u| - R ≤ |x ⬝ᵥ u - m| := by
      have := abs_sub_abs_le_abs_sub (x ⬝ᵥ u) m
      linarith
    have hs : 0 < s := by linarith
    calc (|x ⬝ᵥ u| - R) / s₁ ≤ |x ⬝ᵥ u - m| / s₁ := by gcongr
      _ ≤ |x ⬝ᵥ u - m| / s := by gcongr

theorem vecNorm_sq (d : Fin p → ℝ) : vecNorm d ^ 2 = d ⬝ᵥ d := Real.sq_sqrt (dot_self_nonneg d)

theorem unit_of_vecNorm {d : Fin p → ℝ} (h : vecNorm d ≠ 0) :
    (fun j => d j / vecNorm d) ⬝ᵥ (fun j => d j / vecNorm d) = 1 := by
  have e : (fun j => d j / vecNorm d) = (vecNorm d)⁻¹ • d := by
    funext j; simp [div_eq_inv_mul]
  rw [e, smul_dotProduct, dotProduct_smul, ← vecNorm_sq, smul_eq_mul, smul_eq_mul]
  field_simp

/-- A direction of the code is a unit vector, or NaN when the vector before scaling is 0. -/
theorem randomDirection_unit {S : Type} {ch : Choice S} {svd : List (Fin p → ℝ) → Fin p → ℝ} {X : List (Fin p → ℝ)} {k : ℕ}
    {s : S} {u : Fin p → ℝ} (h : randomDirection ch svd X k s = .ok (some u)) : u ⬝ᵥ u = 1 := by
  unfold randomDirection at h
  split_ifs at h with h0
  rcases hr : rawDirection svd (takeAt X (ch.pick s X.length k)) k with e | d
  · rw [hr] at h; cases h
  rw [hr] at h
  have h := Except.ok.inj h
  simp only at h
  split_ifs at h with h1
  rw [← Option.some.inj h]
  exact unit_of_vecNorm h1

/-- The direction through two given rows. -/
theorem randomDirection_two {S : Type} {ch : Choice S} (svd : List (Fin p → ℝ) → Fin p → ℝ) {X : List (Fin p → ℝ)} (hX : X.Nodup)
    (h2 : 2 ≤ X.length) (s : S) : ∃ i j x y, ch.pick s X.length 2 = [i, j] ∧ X[i]? = some x ∧ X[j]? = some y ∧ x - y ≠ 0 ∧
      vecNorm (x - y) ≠ 0 ∧ randomDirection ch svd X 2 s = .ok (some fun l => (x - y) l / vecNorm (x - y)) := by
  have hlen := ch.length s X.length 2 h2
  have hnd := ch.nodup s X.length 2 h2
  have hlt := ch.lt s X.length 2 h2
  rcases hpk : ch.pick s X.length 2 with _ | ⟨i, _ | ⟨j, _ | ⟨l, t⟩⟩⟩
  · rw [hpk] at hlen; simp at hlen
  · rw [hpk] at hlen; simp at hlen
  · rw [hpk] at hnd hlt
    have hi := hlt i (by simp)
    have hj := hlt j (by simp)
    have hij : i ≠ j := by simpa using hnd
    have hne : X[i] - X[j] ≠ 0 := fun h => hij ((List.Nodup.getElem_inj_iff hX).1 (sub_eq_zero.1 h))
    have hn0 : vecNorm (X[i] - X[j]) ≠ 0 := by
      intro h0
      have := vecNorm_sq (X[i] - X[j])
      rw [h0] at this
      have := dot_self_pos hne
      linarith
    refine ⟨i, j, X[i], X[j], rfl, List.getElem?_eq_getElem hi, List.getElem?_eq_getElem hj, hne, hn0, ?_⟩
    have ht : takeAt X [i, j] = [X[i], X[j]] := by
      simp [takeAt, List.getElem?_eq_getElem hi, List.getElem?_eq_getElem hj]
    unfold randomDirection
    rw [if_neg (by omega), hpk, ht]
    simp only [rawDirection, if_true, Except.map]
    rw [if_neg hn0]
  · rw [hpk] at hlen; simp at hlen

/-- **C181**: when the outliers and one row per column are at most half of the rows, the others are in general position
and no two rows are equal, every outlyingness is a number, the one of the other rows is bounded whatever the outliers and
the draws are, and an outlier that is drawn together with one of the other rows has an arbitrarily large outlyingness once
it is far enough away. -/
theorem C181_separates (hp : 0 < p) (G : List (Fin p → ℝ)) (hG : Spec.RowsInGeneralPosition G) :
    ∃ B : ℝ, ∀ K : ℝ, ∃ T : ℝ, ∀ X O : List (Fin p → ℝ), X.Perm (O ++ G) → O.length + p ≤ X.length / 2 → X.Nodup →
      ∀ {S : Type} (ch : Choice S) (svd : List (Fin p → ℝ) → Fin p → ℝ) (fresh : ℕ → S) (nDir : ℕ) (seed : Option S), nDir ≠ 0 →
        ∃ out, stahelDonoho ch svd fresh X 2 nDir seed = .ok out ∧ out.length = X.length ∧
          ∀ (i : ℕ) x, X[i]? = some x → ∃ v : ℝ, out[i]? = some (some (v : WithTop ℝ)) ∧ (x ∈ G → v ≤ B) ∧
            (T < x ⬝ᵥ x → ∀ (j : ℕ) (y : Fin p → ℝ), X[j]? = some y → y ∈ G →
              Spec.drawnTogether ch (fun k => seed.getD (fresh k)) X.length nDir i j → K < v) := by
  obtain ⟨B, R, s₁, hR, hs₁, hrows, hmain⟩ := sd_directions hp G hG
  refine ⟨B, fun K => ⟨(3 * R + s₁ * |K|) ^ 2, ?_⟩⟩
  intro X O hX hO hnd S ch svd fresh nDir seed hn
  have h2 : 2 ≤ X.length := by omega
  obtain ⟨out, hout, hlen⟩ := stahelDonoho_ok ch svd fresh X h2 nDir hn seed
  refine ⟨out, hout, hlen, ?_⟩
  intro i x hx
  unfold stahelDonoho at hout
  rw [if_neg hn] at hout
  rcases hD : mapExcept (fun i => randomDirection ch svd X 2 (seed.getD (fresh i))) (List.range nDir) with e | D
  · rw [hD] at hout; cases hout
  rw [hD] at hout
  obtain rfl := Except.ok.inj hout
  have hne : D ≠ [] := by
    rintro rfl
    have := (mapExcept_ok hD).length_eq
    simp at this
    exact hn this
  obtain ⟨v, hv, hgood, hlow⟩ := hmain X O hX hO D hne (by
    intro d hd
    obtain ⟨k, -, hk⟩ := mapExcept_mem hD d hd
    obtain ⟨_, _, _, _, -, -, -, -, -, e⟩ := randomDirection_two svd hnd h2 (ch := ch) (seed.getD (fresh k))
    have hk' := hk
    rw [e] at hk'
    obtain rfl := Except.ok.inj hk'
    exact ⟨_, rfl, randomDirection_unit hk⟩) i x hx
  refine ⟨v, hv, hgood, ?_⟩
  rintro hT j y hy hyG ⟨k, hk, hpick⟩
  obtain ⟨a, b, xa, xb, hab, hxa, hxb, hne2, hn0, hdir⟩ := randomDirection_two svd hnd h2 (ch := ch) (seed.getD (fresh k))
  obtain ⟨d, hd, hdk⟩ := mapExcept_mem' hD k (List.mem_range.2 hk)
  rw [hdir] at hdk
  obtain rfl := Except.ok.inj hdk
  set N := vecNorm (xa - xb) with hN
  have hNpos : 0 < N := lt_of_le_of_ne (Real.sqrt_nonneg _) (Ne.symm hn0)
  have hunit := randomDirection_unit hdir
  set u : Fin p → ℝ := fun l => (xa - xb) l / N with hu
  have huN : ∀ z : Fin p → ℝ, z ⬝ᵥ u = (z ⬝ᵥ (xa - xb)) / N := by
    intro z
    have : u = N⁻¹ • (xa - xb) := by funext l; simp [hu, div_eq_inv_mul]
    rw [this, dotProduct_smul, smul_eq_mul, div_eq_inv_mul]
  have hdiff : xa ⬝ᵥ u - xb ⬝ᵥ u = N := by
    rw [huN, huN, ← sub_div, ← sub_dotProduct, ← vecNorm_sq, ← hN, pow_two]
    field_simp
  have hpair : (xa = x ∧ xb = y) ∨ (xa = y ∧ xb = x) := by
    simp only [hab] at hpick
    rcases hpick with h | h
    · obtain ⟨rfl, rfl⟩ : a = i ∧ b = j := by simpa using h
      rw [hx] at hxa; rw [hy] at hxb
      exact .inl ⟨(Option.some.inj hxa).symm, (Option.some.inj hxb).symm⟩
    · obtain ⟨rfl, rfl⟩ : a = j ∧ b = i := by simpa using h
      rw [hy] at hxa; rw [hx] at hxb
      exact .inr ⟨(Option.some.inj hxa).symm, (Option.some.inj hxb).symm⟩
  have hyu : |y ⬝ᵥ u| ≤ R := by
    refine abs_le_of_sq_le_sq ?_ hR.le
    have := dot_sq_le y u
    rw [hunit, mul_one] at this
    exact this.trans (hrows y hyG)
  -- the length of the difference
  have hNlow : 2 * R + s₁ * |K| < N := by
    by_contra hcon
    push Not at hcon
    have hx2 : x ⬝ᵥ x ≤ (R + N) ^ 2 := by
      have hy2 := hrows y hyG
      have hw : (x - y) ⬝ᵥ (x - y) = N ^ 2 := by
        rw [hN, vecNorm_sq]
        rcases hpair with ⟨rfl, rfl⟩ | ⟨rfl, rfl⟩
        · rfl
        · rw [← neg_sub xb xa, neg_dotProduct, dotProduct_neg, neg_neg]
      have hcs := dot_sq_le y (x - y)
      rw [hw] at hcs
      have hcs2 : y ⬝ᵥ (x - y) ≤ R * N := by
        refine le_trans (le_abs_self _) (abs_le_of_sq_le_sq (hcs.trans ?_) (by positivity))
        rw [mul_pow]
        gcongr
      have e : x ⬝ᵥ x = y ⬝ᵥ y + 2 * (y ⬝ᵥ (x - y)) + (x - y) ⬝ᵥ (x - y) := by
        simp only [dotProduct_sub, sub_dotProduct, dotProduct_comm x y]
        ring
      rw [e, hw]
      nlinarith
    have : (R + N) ^ 2 ≤ (3 * R + s₁ * |K|) ^ 2 := by
      have : 0 ≤ R + N := by positivity
      exact pow_le_pow_left₀ this (by linarith) 2
    linarith
  have hxu : R + s₁ * |K| < |x ⬝ᵥ u| := by
    rcases hpair with ⟨rfl, rfl⟩ | ⟨rfl, rfl⟩
    · have h1 := abs_le.1 hyu
      have := le_abs_self (xa ⬝ᵥ u)
      linarith
    · have h1 := abs_le.1 hyu
      have := neg_le_abs (xb ⬝ᵥ u)
      linarith
  refine lt_of_le_of_lt (le_abs_self K) (lt_of_lt_of_le ?_ (hlow u hd))
  rw [lt_div_iff₀ hs₁]
  linarith [mul_comm s₁ |K|]

/-- **C181**, any number of points per direction, provided that the last singular vector is not 0: the outlyingness of
the good rows is bounded. -/
theorem C181_any_points (hp : 0 < p) (G : List (Fin p → ℝ)) (hG : Spec.RowsInGeneralPosition G) :
    ∃ B : ℝ, ∀ X O : List (Fin p → ℝ), X.Perm (O ++ G) → O.length + p ≤ X.length / 2 →
      ∀ {S : Type} (ch : Choice S) (svd : List (Fin p → ℝ) → Fin p → ℝ) (fresh : ℕ → S) (nPoints nDir : ℕ) (seed : Option S)
        (out : List ExtFloat), (∀ V, svd V ⬝ᵥ svd V = 1) → nPoints ≠ 2 →
        stahelDonoho ch svd fresh X nPoints nDir seed = .ok out →
        ∀ (i : ℕ) x, X[i]? = some x → x ∈ G → ∃ v : ℝ, out[i]? = some (some (v : WithTop ℝ)) ∧ v ≤ B := by
  obtain ⟨B, R, s₁, hR, hs₁, hrows, hmain⟩ := sd_directions hp G hG
  refine ⟨B, ?_⟩
  intro X O hX hO S ch svd fresh nPoints nDir seed out hsvd hnp hout i x hx hxG
  unfold stahelDonoho at hout
  by_cases hn : nDir = 0
  · rw [if_pos hn] at hout; cases hout
  rw [if_neg hn] at hout
  rcases hD : mapExcept (fun i => randomDirection ch svd X nPoints (seed.getD (fresh i))) (List.range nDir) with e | D
  · rw [hD] at hout; cases hout
  rw [hD] at hout
  obtain rfl := Except.ok.inj hout
  have hne : D ≠ [] := by
    rintro rfl
    have := (mapExcept_ok hD).length_eq
    simp at this
    exact hn this
  obtain ⟨v, hv, hgood, -⟩ := hmain X O hX hO D hne (by
    intro d hd
    obtain ⟨k, -, hk⟩ := mapExcept_mem hD d hd
    rcases d with _ | u
    · exfalso
      unfold randomDirection at hk
      split_ifs at hk with h0
      rcases ht : takeAt X (ch.pick (seed.getD (fresh k)) X.length nPoints) with _ | ⟨a, l⟩
      · rw [ht] at hk; cases hk
      · rw [ht] at hk
        simp only [rawDirection, if_neg hnp, Except.map] at hk
        rw [if_neg] at hk
        · cases hk
        · intro h0
          have := vecNorm_sq (svd ((a :: l).map fun x => x - a))
          rw [h0, hsvd] at this
          norm_num at this
    · exact ⟨u, rfl, randomDirection_unit hk⟩) i x hx
  exact ⟨v, hv, hgood hxG⟩

/-- The hypotheses of `C181_separates` for one outlier among six rows with two columns. -/
example (a : ℝ) (ha : 4 < a) : Spec.RowsInGeneralPosition c132Good ∧ (![a, a] :: c132Good).Perm ([![a, a]] ++ c132Good) ∧
    [![a, a]].length + 2 ≤ (![a, a] :: c132Good).length / 2 ∧ (![a, a] :: c132Good).Nodup := by
  refine ⟨c132Good_gp, List.Perm.refl _, by simp [c132Good], ?_⟩
  unfold c132Good
  simp only [List.nodup_cons, List.mem_cons, List.not_mem_nil, or_false, not_or, List.nodup_nil, and_true, not_false_eq_true]
  have h : ∀ b c d e : ℝ, b ≠ d → ¬ (![b, c] : Fin 2 → ℝ) = ![d, e] := fun b c d e hb h => hb (by simpa using congrFun h 0)
  refine ⟨⟨h _ _ _ _ ?_, h _ _ _ _ ?_, h _ _ _ _ ?_, h _ _ _ _ ?_, h _ _ _ _ ?_⟩,
    ⟨h _ _ _ _ ?_, h _ _ _ _ ?_, h _ _ _ _ ?_, h _ _ _ _ ?_⟩, ⟨h _ _ _ _ ?_, h _ _ _ _ ?_, h _ _ _ _ ?_⟩,
    ⟨h _ _ _ _ ?_, h _ _ _ _ ?_⟩, h _ _ _ _ ?_⟩ <;> first | (norm_num; done) | (intro h; linarith)

end Robpy
