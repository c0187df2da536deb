import Verif.Lemmas.CStep

/-! Lemmas on the FastMCD / DetMCD model. -/

namespace Robpy
open Matrix

section
variable {K : Type} [Field K] [LinearOrder K] {m : Type} [Fintype m] [DecidableEq m]

/-- `s` describes the rows `s.indices` of `X`: distinct rows, their mean, covariance and determinant. -/
structure IsSubset (X : List (m → K)) (s : HSubset K m) : Prop where
  nodup : s.indices.Nodup
  lt : ∀ i ∈ s.indices, i < X.length
  location : s.location = meanRow (takeAt X s.indices)
  scale : s.scale = npCov (takeAt X s.indices)
  determinant : s.determinant = (npCov (takeAt X s.indices)).det

omit [LinearOrder K] in
theorem getSubset_ok {X : List (m → K)} {idx : List ℕ} {k : ℕ} {s : HSubset K m}
    (h : getSubset X idx k = .ok s) :
    Fintype.card m ≠ 1 ∧ s = ⟨idx, meanRow (takeAt X idx), npCov (takeAt X idx),
      (npCov (takeAt X idx)).det, k⟩ := by
  unfold getSubset npDetCov at h
  split_ifs at h with hp
  · simp [Except.map] at h
  · exact ⟨hp, (Except.ok.inj h).symm⟩

omit [LinearOrder K] in
theorem getSubset_eq (hp : Fintype.card m ≠ 1) (X : List (m → K)) (idx : List ℕ) (k : ℕ) :
    getSubset X idx k = .ok ⟨idx, meanRow (takeAt X idx), npCov (takeAt X idx),
      (npCov (takeAt X idx)).det, k⟩ := by
  unfold getSubset npDetCov
  rw [if_neg hp]; rfl

omit [LinearOrder K] in
theorem getSubset_isSubset {X : List (m → K)} {idx : List ℕ} {k : ℕ} {s : HSubset K m}
    (h : getSubset X idx k = .ok s) (hn : idx.Nodup) (hl : ∀ i ∈ idx, i < X.length) : IsSubset X s := by
  obtain ⟨-, rfl⟩ := getSubset_ok h
  exact ⟨hn, hl, rfl, rfl, rfl⟩

theorem sqMahalanobis_ok {X : List (m → K)} {loc : m → K} {S : Matrix m m K} {d : List K}
    (h : sqMahalanobis X loc S = .ok d) :
    S.det ≠ 0 ∧ d = X.map fun x => quadForm S⁻¹ (x - loc) := by
  unfold sqMahalanobis at h
  by_cases hd : S.det = 0
  · unfold npInv at h; rw [if_pos hd] at h; simp [Except.map] at h
  · rw [npInv_eq S hd] at h
    exact ⟨hd, (Except.ok.inj h).symm⟩

theorem sqMahalanobis_eq {X : List (m → K)} {loc : m → K} {S : Matrix m m K} (hd : S.det ≠ 0) :
    sqMahalanobis X loc S = .ok (X.map fun x => quadForm S⁻¹ (x - loc)) := by
  unfold sqMahalanobis; rw [npInv_eq S hd]; rfl

theorem sqMahalanobis_singular {X : List (m → K)} {loc : m → K} {S : Matrix m m K} (hd : S.det = 0) :
    sqMahalanobis X loc S = .error .linAlgError := by
  unfold sqMahalanobis npInv; rw [if_pos hd]; rfl

variable [FloorSemiring K]

theorem cStep_ok {srt : ArgSort K} {alpha : Alpha K} {X : List (m → K)} {s new : HSubset K m}
    (h : cStep srt alpha X s = .ok new) :
    s.scale.det ≠ 0 ∧ Fintype.card m ≠ 1 ∧ ∃ k, mcdGetH alpha X.length (Fintype.card m) = .ok k ∧
      getSubset X ((srt.toFun (X.map fun x => quadForm s.scale⁻¹ (x - s.location))).take k)
        (s.nCSteps + 1) = .ok new := by
  unfold cStep at h
  rcases hd : sqMahalanobis X s.location s.scale with e | d
  · rw [hd] at h; simp [Except.bind] at h
  obtain ⟨h1, rfl⟩ := sqMahalanobis_ok hd
  rw [hd] at h
  simp only [Except.bind] at h
  rcases hh : mcdGetH alpha X.length (Fintype.card m) with e | k
  · rw [hh] at h; simp at h
  rw [hh] at h
  simp only at h
  exact ⟨h1, (getSubset_ok h).1, k, rfl, h⟩

theorem cStep_eq {srt : ArgSort K} {alpha : Alpha K} {X : List (m → K)} {s : HSubset K m} {k : ℕ}
    (hd : s.scale.det ≠ 0) (hk : mcdGetH alpha X.length (Fintype.card m) = .ok k) :
    cStep srt alpha X s =
      getSubset X ((srt.toFun (X.map fun x => quadForm s.scale⁻¹ (x - s.location))).take k)
        (s.nCSteps + 1) := by
  unfold cStep
  rw [sqMahalanobis_eq hd, hk]; rfl

theorem cStep_singular {srt : ArgSort K} {alpha : Alpha K} {X : List (m → K)} {s : HSubset K m}
    (hd : s.scale.det = 0) : cStep srt alpha X s = .error .linAlgError := by
  unfold cStep
  rw [sqMahalanobis_singular hd]; rfl

theorem cStep_isSubset {srt : ArgSort K} {alpha : Alpha K} {X : List (m → K)} {s new : HSubset K m}
    (h : cStep srt alpha X s = .ok new) : IsSubset X new := by
  obtain ⟨-, -, k, -, hg⟩ := cStep_ok h
  refine getSubset_isSubset hg ((List.take_sublist _ _).nodup (srt.nodup _)) fun i hi => ?_
  simpa using srt.lt _ i (List.mem_of_mem_take hi)

theorem cStep_length {srt : ArgSort K} {alpha : Alpha K} {X : List (m → K)} {s new : HSubset K m} {k : ℕ}
    (h : cStep srt alpha X s = .ok new) (hk : mcdGetH alpha X.length (Fintype.card m) = .ok k) :
    new.indices.length = min k X.length := by
  obtain ⟨-, -, k', hk', hg⟩ := cStep_ok h
  rw [hk] at hk'
  obtain rfl := Except.ok.inj hk'
  obtain ⟨-, rfl⟩ := getSubset_ok hg
  simp [srt.length]

/-- `s` is the result of a C-step on `X`. -/
def Stepped (srt : ArgSort K) (alpha : Alpha K) (X : List (m → K)) (s : HSubset K m) : Prop :=
  ∃ s0, cStep srt alpha X s0 = .ok s

theorem Stepped.isSubset {srt : ArgSort K} {alpha : Alpha K} {X : List (m → K)} {s : HSubset K m}
    (h : Stepped srt alpha X s) : IsSubset X s := cStep_isSubset h.choose_spec

theorem Stepped.scale_det {srt : ArgSort K} {alpha : Alpha K} {X : List (m → K)} {s : HSubset K m}
    (h : Stepped srt alpha X s) : s.scale.det = s.determinant := by
  rw [h.isSubset.scale, h.isSubset.determinant]

theorem Stepped.getH {srt : ArgSort K} {alpha : Alpha K} {X : List (m → K)} {s : HSubset K m}
    (h : Stepped srt alpha X s) : Fintype.card m ≠ 1 ∧
      ∃ k, mcdGetH alpha X.length (Fintype.card m) = .ok k ∧ s.indices.length = min k X.length := by
  obtain ⟨s0, h0⟩ := h
  obtain ⟨-, hp, k, hk, -⟩ := cStep_ok h0
  exact ⟨hp, k, hk, cStep_length h0 hk⟩

/-- From a non-singular subset obtained by a C-step the next C-step succeeds and keeps the size. -/
theorem Stepped.next {srt : ArgSort K} {alpha : Alpha K} {X : List (m → K)} {s : HSubset K m}
    (h : Stepped srt alpha X s) (hd : s.determinant ≠ 0) :
    ∃ new, cStep srt alpha X s = .ok new ∧ new.indices.length = s.indices.length ∧
      Stepped srt alpha X new := by
  obtain ⟨hp, k, hk, hlen⟩ := h.getH
  have hd' : s.scale.det ≠ 0 := by rw [h.scale_det]; exact hd
  have he := cStep_eq (srt := srt) (s := s) hd' hk
  rw [getSubset_eq hp] at he
  exact ⟨_, he, by rw [cStep_length he hk, hlen], ⟨s, he⟩⟩

theorem multiCSteps_stepped {srt : ArgSort K} {alpha : Alpha K} {X : List (m → K)} {k : ℕ} (hk : 0 < k)
    {s t : HSubset K m} (h : multiCSteps srt alpha X k s = .ok t) : Stepped srt alpha X t := by
  induction k generalizing s with
  | zero => omega
  | succ k ih =>
    unfold multiCSteps at h
    rcases hc : cStep srt alpha X s with e | s1
    · rw [hc] at h; simp [Except.bind] at h
    · rw [hc] at h
      simp only [Except.bind] at h
      rcases Nat.eq_zero_or_pos k with rfl | hk'
      · unfold multiCSteps at h
        obtain rfl := Except.ok.inj h
        exact ⟨s, hc⟩
      · exact ih hk' h

end

section
variable {α β : Type}

theorem mapExcept_ok {f : α → Except PyErr β} {l : List α} {bs : List β} (h : mapExcept f l = .ok bs) :
    List.Forall₂ (fun a b => f a = .ok b) l bs := by
  induction l generalizing bs with
  | nil => unfold mapExcept at h; obtain rfl := Except.ok.inj h; exact .nil
  | cons a l ih =>
    unfold mapExcept at h
    rcases hf : f a with e | b
    · rw [hf] at h; simp [Except.bind] at h
    · rw [hf] at h
      simp only [Except.bind] at h
      rcases hm : mapExcept f l with e | bs'
      · rw [hm] at h; simp [Except.map] at h
      · rw [hm] at h
        simp only [Except.map] at h
        obtain rfl := Except.ok.inj h
        exact .cons hf (ih hm)

theorem mapExcept_mem {f : α → Except PyErr β} {l : List α} {bs : List β} (h : mapExcept f l = .ok bs) :
    ∀ b ∈ bs, ∃ a ∈ l, f a = .ok b := by
  have h2 := mapExcept_ok h
  clear h
  induction h2 with
  | nil => simp
  | cons hf _ ih =>
    intro b hb
    rcases List.mem_cons.1 hb with rfl | hb
    · exact ⟨_, by simp, hf⟩
    · obtain ⟨a, ha, hfa⟩ := ih b hb
      exact ⟨a, by simp [ha], hfa⟩

theorem mapExcept_mem' {f : α → Except PyErr β} {l : List α} {bs : List β} (h : mapExcept f l = .ok bs) :
    ∀ a ∈ l, ∃ b ∈ bs, f a = .ok b := by
  have h2 := mapExcept_ok h
  clear h
  induction h2 with
  | nil => simp
  | cons hf _ ih =>
    intro a ha
    rcases List.mem_cons.1 ha with rfl | ha
    · exact ⟨_, by simp, hf⟩
    · obtain ⟨b, hb, hfa⟩ := ih a ha
      exact ⟨b, by simp [hb], hfa⟩

theorem Run.andThen_ok {x : Run α} {f : α → Run β} {b : β} (h : x.andThen f = some (.ok b)) :
    ∃ a, x = some (.ok a) ∧ f a = some (.ok b) := by
  rcases x with _ | (e | a)
  · simp [Run.andThen] at h
  · simp [Run.andThen] at h
  · exact ⟨a, rfl, h⟩

end

section real
variable {m : Type} [Fintype m] [DecidableEq m]

/-- C-step on a subset of the same size: the determinant does not increase, and if it is unchanged then
so are location and covariance. -/
theorem cStep_det_le {srt : ArgSort ℝ} {alpha : Alpha ℝ} {X : List (m → ℝ)} {s new : HSubset ℝ m}
    (hs : IsSubset X s) (h : cStep srt alpha X s = .ok new)
    (hlen : new.indices.length = s.indices.length) :
    new.determinant ≤ s.determinant ∧
    (new.determinant = s.determinant → new.scale = s.scale ∧ new.location = s.location) := by
  obtain ⟨hd, -, k, hk, hg⟩ := cStep_ok h
  have hnew := cStep_isSubset h
  obtain ⟨-, rfl⟩ := getSubset_ok hg
  set d := X.map fun x => quadForm s.scale⁻¹ (x - s.location) with hdef
  simp only at hlen hnew ⊢
  have hdl : d.length = X.length := by simp [hdef]
  have hsum := srt.sum_le d s.indices hs.nodup (by rw [hdl]; exact hs.lt)
  have htake : (srt.toFun d).take s.indices.length = (srt.toFun d).take k := by
    rw [← hlen, List.length_take]
    rcases le_total k (srt.toFun d).length with h1 | h1
    · rw [min_eq_left h1]
    · rw [min_eq_right h1, List.take_length, List.take_of_length_le h1]
  rw [htake, hdef, takeAt_map, takeAt_map, hs.scale, hs.location] at hsum
  have hl : (takeAt X ((srt.toFun d).take k)).length = (takeAt X s.indices).length := by
    rw [takeAt_length _ _ hnew.lt, takeAt_length _ _ hs.lt, hlen]
  have := cstep_core (takeAt X s.indices) (takeAt X ((srt.toFun d).take k)) hl
    (by rw [← hs.scale]; exact hd) (by rw [hdef, hs.scale, hs.location]; exact hsum)
  rw [hs.determinant, hs.scale, hs.location]
  rw [hs.scale, hs.location] at hdef
  exact this

/-- With a positive tolerance the `while` loop ends in its first pass and returns its argument. -/
theorem converge_stepped {srt : ArgSort ℝ} {alpha : Alpha ℝ} {tol : ℝ} (htol : 0 < tol) {X : List (m → ℝ)}
    {s : HSubset ℝ m} (h : Stepped srt alpha X s) (fuel : ℕ) :
    runLoop (convergeStep srt alpha tol X) (fuel + 1) s =
      if s.determinant = 0 then some (.error .linAlgError) else some (.ok s) := by
  unfold runLoop convergeStep
  split_ifs with hd
  · rw [cStep_singular (by rw [h.scale_det]; exact hd)]; rfl
  · obtain ⟨new, hn, hl, -⟩ := h.next hd
    rw [hn]
    have hle := (cStep_det_le h.isSubset hn hl).1
    simp only [Except.bind, indicesEqual, if_pos hl]
    rw [if_pos (Or.inr (by linarith))]

end real
end Robpy
