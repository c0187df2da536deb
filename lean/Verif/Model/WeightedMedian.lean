import Verif.Lemmas.Sort

/-! Model of `robpy/utils/median.py: weighted_median`. -/

namespace Robpy

variable {K W : Type*} [LinearOrder K] [CommRing W] [LinearOrder W]

/-- One run of the `while True` loop of `weighted_median`, robpy/utils/median.py 45-68.
`cand` is the list of pairs `(X[i], weights[i])` of the remaining candidates, `wrest` the
weight already discarded on the left, `wtotal` the total weight.

* no candidate left: `Xcand[0]` raises IndexError (line 55 with `n = 0`);
* one candidate: it is returned (line 55);
* otherwise `trial` is the `ceil(n/2)`-th order statistic (46-53) and one of the three
  branches 58-65 is taken.

The recursion is accepted by Lean because every branch removes the trial value. -/
def weightedMedianLoop (wtotal : W) (cand : List (K × W)) (wrest : W) : Except PyErr K :=
  match cand with
  | [] => .error .indexError
  | [q] => .ok q.1
  | q₁ :: q₂ :: rest =>
    let c := q₁ :: q₂ :: rest
    match h : npPartitionMax (c.map Prod.fst) ((c.length + 1) / 2) with
    | none => .error .valueError
    | some trial =>
      let wleft := ((c.filter fun q => q.1 < trial).map Prod.snd).sum
      let wmid := ((c.filter fun q => q.1 = trial).map Prod.snd).sum
      if wtotal < 2 * (wrest + wleft) then
        weightedMedianLoop wtotal (c.filter fun q => q.1 < trial) wrest
      else if wtotal < 2 * (wrest + wleft + wmid) then
        .ok trial
      else
        weightedMedianLoop wtotal (c.filter fun q => trial < q.1) (wrest + wleft + wmid)
termination_by cand.length
decreasing_by
  all_goals
    have hm := npPartitionMax_mem h
    obtain ⟨q, hq, rfl⟩ := List.mem_map.1 hm
    exact List.length_filter_lt_length_iff_exists.2 ⟨q, hq, by simp⟩

/-- `weighted_median(X, weights)`, robpy/utils/median.py 28-68; `xs` is the list of pairs
`(X[i], weights[i])`. -/
def weightedMedian (xs : List (K × W)) : Except PyErr K :=
  weightedMedianLoop ((xs.map Prod.snd).sum) xs 0

end Robpy
