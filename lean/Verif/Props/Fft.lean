import Verif.Lemmas.Fft
import Verif.Props.AxisIter
import Verif.Props.IndexView
import Mathlib.Analysis.SpecialFunctions.Complex.Log
/-!
# C62: Fourier transforms
-/

namespace Xt

open Spec

variable {K : Type} [Field K] {o : FftOps K}

/-- The element of the row-major array of this shape with coordinate `k` on the axis. -/
def Spec.along (sh : List Nat) (axis : Nat) (m : Mem K) (i : List Nat) (k : Nat) : K :=
  m (rowRank sh (withAxis axis k i) : Int)

/-- `m'` has `f` applied to every sequence of elements along the axis of the array in `m`. -/
def Spec.AlongAxis (sh : List Nat) (axis : Nat) (f : (Nat → K) → Nat → K) (m m' : Mem K) : Prop :=
  ∀ i, InBounds (otherAxes axis sh) i → ∀ k, k < sh.getD axis 0 → along sh axis m' i k = f (along sh axis m i) k

/-! ### Reading and writing slices -/

theorem writes_at (pos : Nat → Int) : ∀ (vs : List K) (s : Nat) (m : Mem K),
    (∀ i j, s ≤ i → i < s + vs.length → s ≤ j → j < s + vs.length → pos i = pos j → i = j) →
    (∀ p, (∀ i, s ≤ i → i < s + vs.length → p ≠ pos i) →
      ((vs.zipIdx s).foldl (fun (m : Mem K) (q : K × Nat) => m.set (pos q.2) q.1) m) p = m p) ∧
    (∀ k, k < vs.length →
      ((vs.zipIdx s).foldl (fun (m : Mem K) (q : K × Nat) => m.set (pos q.2) q.1) m) (pos (s + k)) = vs.getD k 0)
  | [], s, m, _ => ⟨fun _ _ => rfl, fun _ h => by simp at h⟩
  | v :: vs, s, m, hinj => by
    have ih := writes_at pos vs (s + 1) (m.set (pos s) v) (by
      intro i j h1 h2 h3 h4
      exact hinj i j (by omega) (by simp; omega) (by omega) (by simp; omega))
    simp only [List.zipIdx_cons, List.foldl_cons]
    constructor
    · intro p hp
      rw [ih.1 p fun i h1 h2 => hp i (by omega) (by simp; omega)]
      exact Mem.set_other _ _ (hp s (by omega) (by simp))
    · intro k hk
      cases k with
      | zero =>
        refine (ih.1 (pos s) ?_).trans (Mem.set_same _ _ _)
        · intro i h1 h2 e
          have := hinj s i (by omega) (by simp) (by omega) (by simp; omega) e
          omega
      | succ k =>
        rw [show s + (k + 1) = s + 1 + k from by omega, ih.2 k (by simp at hk; omega)]
        rfl

theorem writes_other (pos : Nat → Int) {p : Int} : ∀ (vs : List K) (s : Nat) (m : Mem K),
    (∀ i, s ≤ i → i < s + vs.length → p ≠ pos i) →
    ((vs.zipIdx s).foldl (fun (m : Mem K) (q : K × Nat) => m.set (pos q.2) q.1) m) p = m p
  | [], s, m, _ => rfl
  | v :: vs, s, m, hp => by
    simp only [List.zipIdx_cons, List.foldl_cons]
    rw [writes_other pos vs (s + 1) _ fun i h1 h2 => hp i (by omega) (by simp; omega)]
    exact Mem.set_other _ _ (hp s (by omega) (by simp))

/-- Position of the k-th element of a slice. -/
def slicePos (s : StridedArr) (k : Nat) : Int := s.off + (k : Int) * s.strides.getD 0 0

theorem readSlice_eq (s : StridedArr) (m : Mem K) : readSlice s m = table (s.shape.getD 0 0) fun k => m (slicePos s k) := rfl

theorem writeSlice_other {s : StridedArr} {vs : List K} {m : Mem K} {p : Int}
    (hinj : ∀ i j, i < vs.length → j < vs.length → slicePos s i = slicePos s j → i = j)
    (hp : ∀ i, i < vs.length → p ≠ slicePos s i) : writeSlice s vs m p = m p :=
  (writes_at (slicePos s) vs 0 m (fun i j _ h1 _ h2 => hinj i j (by omega) (by omega))).1 p
    fun i _ h => hp i (by omega)

theorem writeSlice_at {s : StridedArr} {vs : List K} {m : Mem K}
    (hinj : ∀ i j, i < vs.length → j < vs.length → slicePos s i = slicePos s j → i = j) {k : Nat} (hk : k < vs.length) :
    writeSlice s vs m (slicePos s k) = vs.getD k 0 := by
  have := (writes_at (slicePos s) vs 0 m (fun i j _ h1 _ h2 => hinj i j (by omega) (by omega))).2 k hk
  rwa [Nat.zero_add] at this

/-- The slices hold different elements. -/
structure SlicesApart (n : Nat) (ss : List StridedArr) : Prop where
  shape : ∀ s ∈ ss, s.shape.getD 0 0 = n
  inj : ∀ s ∈ ss, ∀ i j, i < n → j < n → slicePos s i = slicePos s j → i = j
  apart : ss.Pairwise fun s s' => ∀ i j, i < n → j < n → slicePos s i ≠ slicePos s' j

theorem fftLoop_spec (L : FftLaws o) {n : Nat} : ∀ {ss : List StridedArr} (_ : SlicesApart n ss) (m : Mem K),
    ∃ m', fftLoop o ss m = .ok m' ∧
      (∀ s ∈ ss, ∀ k, k < n → m' (slicePos s k) = dft o n (fun j => m (slicePos s j)) k) ∧
      (∀ p, (∀ s ∈ ss, ∀ k, k < n → p ≠ slicePos s k) → m' p = m p)
  | [], _, m => ⟨m, rfl, fun _ h => by simp at h, fun _ _ => rfl⟩
  | s :: ss, H, m => by
    have hap := List.pairwise_cons.1 H.apart
    have hs := H.shape s (by simp)
    have hvl : (table n (dft o n fun j => m (slicePos s j))).length = n := length_table _ _
    have hinj := H.inj s (by simp)
    have H' : SlicesApart n ss := ⟨fun t ht => H.shape t (by simp [ht]), fun t ht => H.inj t (by simp [ht]), hap.2⟩
    have hv : fftSlice o (readSlice s m) = .ok (table n (dft o n fun j => m (slicePos s j))) := by
      rw [fftSlice_spec L, readSlice_eq, length_table, hs]
      congr 1
      exact table_congr fun k _ => dft_congr (fun j hj => getD_table _ _ hj) k
    obtain ⟨m', e, h1, h2⟩ := fftLoop_spec L H' (writeSlice s (table n (dft o n fun j => m (slicePos s j))) m)
    refine ⟨m', ?_, ?_, ?_⟩
    · unfold fftLoop
      rw [hv, Res.bind_ok, e]
    · intro t ht k hk
      rcases List.mem_cons.1 ht with rfl | ht
      · rw [h2 _ fun t' ht' i hi => hap.1 t' ht' k i hk hi]
        rw [writeSlice_at (by rw [hvl]; exact hinj) (by rw [hvl]; exact hk), getD_table _ _ hk]
      · rw [h1 t ht k hk]
        refine dft_congr (fun j hj => ?_) k
        refine writeSlice_other (by rw [hvl]; exact hinj) ?_
        rw [hvl]
        intro i hi e
        exact hap.1 t ht i j hi hj e.symm
    · intro p hp
      rw [h2 p fun t ht => hp t (by simp [ht])]
      exact writeSlice_other (by rw [hvl]; exact hinj) (by rw [hvl]; exact hp s (by simp))

/-! ### The slices of a row-major array -/

/-- The k-th slice. -/
def rowSlice (sh : List Nat) (axis : Nat) (i : List Nat) : StridedArr :=
  StridedArr.mk' [sh.getD axis 0] [(StridedArr.container .row_major sh 0).strides.getD axis 0]
    (addr (StridedArr.container .row_major sh 0) (withAxis axis 0 i))

theorem addr_container_row {sh idx : List Nat} (h : InBounds sh idx) :
    addr (StridedArr.container .row_major sh 0) idx = (rowRank sh idx : Int) := by
  unfold addr
  rw [container_contig (Or.inl rfl) sh 0 idx h]
  show 0 + _ = _
  rw [Int.zero_add]
  rfl

theorem slicePos_rowSlice {sh : List Nat} {axis : Nat} (h : axis < sh.length) {i : List Nat}
    (hi : InBounds (otherAxes axis sh) i) {k : Nat} (hk : k < sh.getD axis 0) :
    slicePos (rowSlice sh axis i) k = (rowRank sh (withAxis axis k i) : Int) := by
  have e := C61_slice_element (StridedArr.container .row_major sh 0) (container_wf _ _) axis h i hi k hk
  obtain ⟨-, -, -, -, -, -, -, hb⟩ := inBounds_withAxis h hi hk
  rw [addr_container_row hb] at e
  rw [← e]
  show slicePos (rowSlice sh axis i) k = addr (rowSlice sh axis i) [k]
  simp [slicePos, addr, rowSlice, StridedArr.mk', dot, toInts]

theorem withAxis_inj {sh : List Nat} {axis : Nat} (h : axis < sh.length) {i j : List Nat} {k l : Nat}
    (hi : InBounds (otherAxes axis sh) i) (hj : InBounds (otherAxes axis sh) j)
    (e : withAxis axis k i = withAxis axis l j) : i = j ∧ k = l := by
  have li : i.length = sh.length - 1 := by rw [hi.length_eq]; simp [otherAxes]; omega
  have lj : j.length = sh.length - 1 := by rw [hj.length_eq]; simp [otherAxes]; omega
  unfold withAxis at e
  obtain ⟨e1, e2⟩ := List.append_inj e (by simp; omega)
  simp only [List.cons.injEq] at e2
  exact ⟨by rw [← List.take_append_drop axis i, e1, e2.2, List.take_append_drop], e2.1⟩

theorem rowRank_inj' {sh i j : List Nat} (hi : InBounds sh i) (hj : InBounds sh j)
    (h : (rowRank sh i : Int) = (rowRank sh j : Int)) : i = j := by
  have : rankIn .row_major sh i = rankIn .row_major sh j := by exact_mod_cast h
  exact rankIn_inj hi hj this

theorem rowSlices_apart {sh : List Nat} {axis : Nat} (h : axis < sh.length) :
    SlicesApart (sh.getD axis 0) ((orderIndices .row_major (otherAxes axis sh)).map (rowSlice sh axis)) where
  shape := by
    intro s hs
    obtain ⟨i, -, rfl⟩ := List.mem_map.1 hs
    rfl
  inj := by
    intro s hs a b ha hb e
    obtain ⟨i, hi, rfl⟩ := List.mem_map.1 hs
    have hi := mem_orderIndices.1 hi
    rw [slicePos_rowSlice h hi ha, slicePos_rowSlice h hi hb] at e
    obtain ⟨-, -, -, -, -, -, -, b1⟩ := inBounds_withAxis h hi ha
    obtain ⟨-, -, -, -, -, -, -, b2⟩ := inBounds_withAxis h hi hb
    exact (withAxis_inj h hi hi (rowRank_inj' b1 b2 e)).2
  apart := by
    rw [List.pairwise_map]
    have hnd : (orderIndices .row_major (otherAxes axis sh)).Nodup := by
      have := List.nodup_range (n := numel (otherAxes axis sh))
      rw [← map_rankIn_orderIndices .row_major] at this
      exact List.Nodup.of_map _ this
    refine hnd.imp_of_mem ?_
    intro i j hi hj hne a b ha hb e
    have hi := mem_orderIndices.1 hi
    have hj := mem_orderIndices.1 hj
    rw [slicePos_rowSlice h hi ha, slicePos_rowSlice h hj hb] at e
    obtain ⟨-, -, -, -, -, -, -, b1⟩ := inBounds_withAxis h hi ha
    obtain ⟨-, -, -, -, -, -, -, b2⟩ := inBounds_withAxis h hj hb
    exact hne (withAxis_inj h hi hj (rowRank_inj' b1 b2 e)).1

theorem rowSlices {sh : List Nat} (hp : 0 < numel sh) {axis : Nat} (h : axis < sh.length)
    (hf : SlicesFit .row_major sh axis) :
    axisSlices (StridedArr.container .row_major sh 0) .row_major axis =
      .ok ((orderIndices .row_major (otherAxes axis sh)).map (rowSlice sh axis)) :=
  (C61_slices_exact .row_major (Or.inl rfl) sh hp axis h).2 hf

/-! ### The transforms -/

theorem normalizeAxis_nat (d a : Nat) : normalizeAxis d (a : Int) = a := by
  unfold normalizeAxis
  rw [if_neg (by omega)]
  simp

/-- `fft` along an axis whose slices are found is the discrete Fourier transform of every slice, whatever its length. -/
theorem C62_fft_partial (L : FftLaws o) (sh : List Nat) (hp : 0 < numel sh) (axis : Int)
    (h : normalizeAxis sh.length axis < sh.length) (hf : SlicesFit .row_major sh (normalizeAxis sh.length axis))
    (m : Mem K) :
    ∃ m', fftAxis o sh axis m = .ok m' ∧
      AlongAxis sh (normalizeAxis sh.length axis) (dft o (sh.getD (normalizeAxis sh.length axis) 0)) m m' := by
  obtain ⟨m', e, h1, -⟩ := fftLoop_spec L (rowSlices_apart h) m
  refine ⟨m', ?_, ?_⟩
  · unfold fftAxis
    simp only
    rw [if_pos h, rowSlices hp h hf, Res.bind_ok, e]
  · intro i hi k hk
    have := h1 _ (List.mem_map_of_mem (mem_orderIndices.2 hi)) k hk
    rw [slicePos_rowSlice h hi hk] at this
    unfold along
    rw [this]
    exact dft_congr (fun j hj => by rw [slicePos_rowSlice h hi hj]) k

theorem fftLoop_unchanged (L : FftLaws o) {p : Int} : ∀ (ss : List StridedArr) (m m' : Mem K), fftLoop o ss m = .ok m' →
    (∀ s ∈ ss, ∀ k, k < s.shape.getD 0 0 → p ≠ slicePos s k) → m' p = m p
  | [], m, m', e, _ => by cases e; rfl
  | s :: ss, m, m', e, h => by
    unfold fftLoop at e
    rw [fftSlice_spec L, Res.bind_ok] at e
    rw [fftLoop_unchanged L ss _ m' e fun t ht => h t (by simp [ht])]
    refine writes_other (slicePos s) _ 0 m ?_
    rw [length_table, readSlice_eq, length_table]
    exact fun i _ hi => h s (by simp) i (by omega)

/-- With four axes or more, transforms along an inner axis can miss slices. -/
theorem C62_fft_inner_axis_wrong (L : FftLaws o) :
    ¬ ∀ (sh : List Nat) (axis : Nat), 0 < numel sh → axis < sh.length → ∀ m : Mem K,
      ∃ m', fftAxis o sh axis m = .ok m' ∧ AlongAxis sh axis (dft o (sh.getD axis 0)) m m' := by
  intro H
  obtain ⟨m', e, h⟩ := H [2, 2, 2, 2] 2 (by decide) (by decide) fun p => if p = 14 then 1 else 0
  have h1 := h [1, 1, 0] (by decide) 0 (by decide)
  have es : axisSlices (StridedArr.container .row_major [2, 2, 2, 2] 0) .row_major 2 =
      .ok ([0, 1, 4, 5, 6, 7, 8, 9].map (StridedArr.mk' [2] [2])) := rfl
  have e' : fftLoop o ([0, 1, 4, 5, 6, 7, 8, 9].map (StridedArr.mk' [2] [2])) (fun p => if p = 14 then 1 else 0) = .ok m' := by
    rw [← e]
    unfold fftAxis
    simp only
    rw [normalizeAxis_nat, if_pos (by decide), es, Res.bind_ok]
  have h2 : m' 12 = 0 := by
    rw [fftLoop_unchanged L (p := 12) _ _ _ e' (by decide)]
    simp
  have h3 : m' 12 = 1 := by
    refine h1.trans ?_
    show dft o 2 _ 0 = 1
    have e0 : along [2, 2, 2, 2] 2 (fun p => if p = 14 then (1 : K) else 0) [1, 1, 0] 0 = 0 := by
      unfold along; exact if_neg (by decide)
    have e1 : along [2, 2, 2, 2] 2 (fun p => if p = 14 then (1 : K) else 0) [1, 1, 0] 1 = 1 := by
      unfold along; exact if_pos (by decide)
    simp [dft, Finset.sum_range_succ, e0, e1, L.zero]
  rw [h2] at h3
  exact zero_ne_one h3

/-- `ifft` along an axis counted from the first is the inverse transform without the division by the length. -/
theorem C62_ifft_partial (L : FftLaws o) (sh : List Nat) (hp : 0 < numel sh) (axis : Nat) (h : axis < sh.length)
    (hf : SlicesFit .row_major sh axis) (m : Mem K) :
    ∃ m', ifftAxis o sh axis m = .ok m' ∧ AlongAxis sh axis (idft o (sh.getD axis 0)) m m' := by
  obtain ⟨m', e, h1⟩ := C62_fft_partial L sh hp axis (by rw [normalizeAxis_nat]; exact h)
    (by rw [normalizeAxis_nat]; exact hf) fun p => o.conj (m p)
  rw [normalizeAxis_nat] at h1
  refine ⟨fun p => o.conj (m' p), ?_, ?_⟩
  · unfold ifftAxis
    rw [if_neg (by omega), Int.toNat_natCast, if_neg, e]
    · rfl
    · have := (numel_shape (Or.inl rfl) h hp).2.1
      omega
  · intro i hi k hk
    have := h1 i hi k hk
    unfold along at this ⊢
    show o.conj (m' _) = _
    rw [this, idft_conj L]

/-- `ifft(fft(x))` is `x` multiplied by the length of the axis. -/
theorem C62_round_trip_partial (L : FftLaws o) (sh : List Nat) (hp : 0 < numel sh) (axis : Nat) (h : axis < sh.length)
    (hf : SlicesFit .row_major sh axis) (m : Mem K) :
    ∃ m', ((fftAxis o sh axis m).bind fun y => ifftAxis o sh axis y) = .ok m' ∧
      ∀ i, InBounds (otherAxes axis sh) i → ∀ k, k < sh.getD axis 0 →
        along sh axis m' i k = (sh.getD axis 0 : Nat) * along sh axis m i k := by
  obtain ⟨m1, e1, h1⟩ := C62_fft_partial L sh hp axis (by rw [normalizeAxis_nat]; exact h)
    (by rw [normalizeAxis_nat]; exact hf) m
  rw [normalizeAxis_nat] at h1
  obtain ⟨m2, e2, h2⟩ := C62_ifft_partial L sh hp axis h hf m1
  refine ⟨m2, by rw [e1, Res.bind_ok, e2], ?_⟩
  intro i hi k hk
  have hn := (numel_shape (Or.inl rfl) h hp).2.1
  rw [h2 i hi k hk, ← idft_dft L hn _ hk]
  exact Finset.sum_congr rfl fun j hj => by rw [h1 i hi j (Finset.mem_range.1 hj)]

/-- So `ifft` is not the inverse of `fft`. -/
theorem C62_not_inverse (L : FftLaws o) :
    ¬ ∀ (sh : List Nat) (axis : Nat), 0 < numel sh → axis < sh.length → ∀ m : Mem K,
      ∃ m', ((fftAxis o sh axis m).bind fun y => ifftAxis o sh axis y) = .ok m' ∧
        AlongAxis sh axis (fun x => x) m m' := by
  intro H
  obtain ⟨m', e, h⟩ := H [2] 0 (by decide) (by decide) fun _ => 1
  obtain ⟨m'', e', h'⟩ := C62_round_trip_partial L [2] (by decide) 0 (by decide) (by decide) fun _ => 1
  rw [e] at e'
  cases e'
  have h1 := h [] (by trivial) 0 (by decide)
  have h2 := h' [] (by trivial) 0 (by decide)
  rw [h1] at h2
  have h3 : (1 : K) = ((2 : Nat) : K) * 1 := h2
  have h4 : ((1 : Nat) : K) ≠ 0 := L.char 1 (by decide)
  apply h4
  push_cast at h3 ⊢
  linear_combination -h3

/-- With a negative axis, the default included, `ifft` reads the shape before its first element. -/
theorem C62_ifft_default_axis_undefined (sh : List Nat) (axis : Int) (h : axis < 0) (m : Mem K) :
    ifftAxis o sh axis m = .ub := by
  unfold ifftAxis
  rw [if_pos (Or.inl h)]

/-- Nor has `convolve` a result with such an axis. -/
theorem C62_convolve_default_axis_undefined (shx shy : List Nat) (axis : Int) (h : axis < 0) (mx my m' : Mem K) :
    fftConvolve o shx shy axis mx my ≠ .ok m' := by
  intro e
  unfold fftConvolve at e
  split at e
  · cases e
  · simp only at e
    split at e
    · cases e
    · split at e
      · cases e
      · cases h1 : fftAxis o shx axis mx with
        | ok xv =>
          rw [h1, Res.bind_ok] at e
          cases h2 : fftAxis o shy axis my with
          | ok yv =>
            rw [h2, Res.bind_ok] at e
            cases h3 : axisSlices (StridedArr.container .row_major shx 0) .row_major (normalizeAxis shx.length axis) with
            | ok ss =>
              rw [h3, Res.bind_ok] at e
              cases h4 : axisSlices (StridedArr.container .row_major shy 0) .row_major (normalizeAxis shx.length axis) with
              | ok ss' =>
                rw [h4, Res.bind_ok] at e
                cases h5 : productLoop ss ss' yv xv with
                | ok pr =>
                  rw [h5, Res.bind_ok, C62_ifft_default_axis_undefined shx axis h] at e
                  cases e
                | throws => rw [h5] at e; cases e
                | ub => rw [h5] at e; cases e
              | throws => rw [h4] at e; cases e
              | ub => rw [h4] at e; cases e
            | throws => rw [h3] at e; cases e
            | ub => rw [h3] at e; cases e
          | throws => rw [h2] at e; cases e
          | ub => rw [h2] at e; cases e
        | throws => rw [h1] at e; cases e
        | ub => rw [h1] at e; cases e

theorem productLoop_spec {n : Nat} {ss : List StridedArr} (H : SlicesApart n ss) (my m : Mem K) :
    ∃ m', productLoop ss ss my m = .ok m' ∧
      (∀ s ∈ ss, ∀ k, k < n → m' (slicePos s k) = my (slicePos s k) * m (slicePos s k)) ∧
      (∀ p, (∀ s ∈ ss, ∀ k, k < n → p ≠ slicePos s k) → m' p = m p) := by
  induction ss generalizing m with
  | nil => exact ⟨m, rfl, fun _ h => by simp at h, fun _ _ => rfl⟩
  | cons s ss ih =>
    have hap := List.pairwise_cons.1 H.apart
    have hs := H.shape s (by simp)
    have hinj := H.inj s (by simp)
    have H' : SlicesApart n ss := ⟨fun t ht => H.shape t (by simp [ht]), fun t ht => H.inj t (by simp [ht]), hap.2⟩
    have hv : List.zipWith (· * ·) (readSlice s my) (readSlice s m) =
        table n fun k => my (slicePos s k) * m (slicePos s k) := by
      rw [readSlice_eq, readSlice_eq, zipWith_table, hs]
    have hvl : (table n fun k => my (slicePos s k) * m (slicePos s k)).length = n := length_table _ _
    obtain ⟨m', e, h1, h2⟩ := ih H' (writeSlice s (table n fun k => my (slicePos s k) * m (slicePos s k)) m)
    refine ⟨m', ?_, ?_, ?_⟩
    · unfold productLoop
      rw [hv, e]
    · intro t ht k hk
      rcases List.mem_cons.1 ht with rfl | ht
      · rw [h2 _ fun t' ht' i hi => hap.1 t' ht' k i hk hi]
        rw [writeSlice_at (by rw [hvl]; exact hinj) (by rw [hvl]; exact hk), getD_table _ _ hk]
      · rw [h1 t ht k hk]
        congr 1
        refine writeSlice_other (by rw [hvl]; exact hinj) ?_
        rw [hvl]
        intro i hi e
        exact hap.1 t ht i k hi hk e.symm
    · intro p hp
      rw [h2 p fun t ht => hp t (by simp [ht])]
      exact writeSlice_other (by rw [hvl]; exact hinj) (by rw [hvl]; exact hp s (by simp))

/-- `convolve` of two arrays of one shape along an axis counted from the first is their circular convolution. -/
theorem C62_convolve_partial (L : FftLaws o) (sh : List Nat) (hp : 0 < numel sh) (axis : Nat) (h : axis < sh.length)
    (hf : SlicesFit .row_major sh axis) (mx my : Mem K) :
    ∃ m', fftConvolve o sh sh axis mx my = .ok m' ∧
      ∀ i, InBounds (otherAxes axis sh) i → ∀ k, k < sh.getD axis 0 →
        along sh axis m' i k = circular (sh.getD axis 0) (along sh axis mx i) (along sh axis my i) k := by
  have ha : normalizeAxis sh.length (axis : Int) < sh.length := by rw [normalizeAxis_nat]; exact h
  have hf' : SlicesFit .row_major sh (normalizeAxis sh.length axis) := by rw [normalizeAxis_nat]; exact hf
  obtain ⟨xv, ex, hx⟩ := C62_fft_partial L sh hp axis ha hf' mx
  obtain ⟨yv, ey, hy⟩ := C62_fft_partial L sh hp axis ha hf' my
  rw [normalizeAxis_nat] at hx hy
  obtain ⟨pr, ep, hpr, -⟩ := productLoop_spec (rowSlices_apart h) yv xv
  obtain ⟨m', e, hm⟩ := C62_ifft_partial L sh hp axis h hf pr
  have hn := (numel_shape (Or.inl rfl) h hp).2.1
  refine ⟨fun p => m' p / ((sh.getD axis 0 : Nat) : K), ?_, ?_⟩
  · unfold fftConvolve
    simp only
    rw [if_neg (by simp), if_neg (by omega), if_neg (by simp), ex, Res.bind_ok, ey, Res.bind_ok, normalizeAxis_nat,
      rowSlices hp h hf, Res.bind_ok, Res.bind_ok, ep, Res.bind_ok, e, Res.map_ok]
  · intro i hi k hk
    have h1 : idft o (sh.getD axis 0) (along sh axis pr i) k =
        idft o (sh.getD axis 0) (fun j => dft o (sh.getD axis 0) (along sh axis mx i) j *
          dft o (sh.getD axis 0) (along sh axis my i) j) k := by
      refine Finset.sum_congr rfl fun j hj => ?_
      have hj := Finset.mem_range.1 hj
      congr 1
      show _ = dft o (sh.getD axis 0) (along sh axis mx i) j * dft o (sh.getD axis 0) (along sh axis my i) j
      rw [← hx i hi j hj, ← hy i hi j hj, mul_comm]
      have := hpr _ (List.mem_map_of_mem (mem_orderIndices.2 hi)) j hj
      rw [slicePos_rowSlice h hi hj] at this
      exact this
    have h2 := hm i hi k hk
    rw [h1, idft_mul L hn _ _ hk] at h2
    unfold along at h2 ⊢
    show m' _ / _ = _
    rw [h2, mul_div_cancel_left₀ _ (L.char _ (by omega))]

/-- `convolve` checks the dimensions and the lengths along the axis. -/
theorem C62_convolve_throws (shx shy : List Nat) (axis : Nat) (hx : axis < shx.length)
    (h : shx.length ≠ shy.length ∨ shx.getD axis 0 ≠ shy.getD axis 0) (mx my : Mem K) :
    fftConvolve o shx shy axis mx my = .throws := by
  unfold fftConvolve
  by_cases hl : shx.length ≠ shy.length
  · rw [if_pos hl]
  · rw [if_neg hl]
    simp only
    rw [normalizeAxis_nat, if_neg (by omega), if_pos (h.resolve_left hl)]

/-- Complex numbers. -/
noncomputable def Spec.complexOps : FftOps ℂ where
  e x := Complex.exp (2 * Real.pi * Complex.I * x)
  conj := starRingEnd ℂ

theorem C62_complex : FftLaws complexOps where
  char n h := by exact_mod_cast h
  add x y := by
    simp only [complexOps]
    rw [← Complex.exp_add]
    congr 1; push_cast; ring
  one := by simp [complexOps, Complex.exp_two_pi_mul_I]
  eq_one x h := by
    simp only [complexOps] at h
    obtain ⟨z, hz⟩ := Complex.exp_eq_one_iff.1 h
    refine ⟨z, ?_⟩
    have h2 : (2 * Real.pi * Complex.I : ℂ) ≠ 0 := Complex.two_pi_I_ne_zero
    rw [mul_comm] at hz
    have := mul_right_cancel₀ h2 hz
    exact_mod_cast this
  conj_add x y := map_add _ x y
  conj_mul x y := map_mul _ x y
  conj_conj x := Complex.conj_conj x
  conj_e x := by
    simp only [complexOps]
    rw [← Complex.exp_conj]
    congr 1
    have h2 : (starRingEnd ℂ) 2 = 2 := Complex.conj_ofNat 2
    simp [h2]

/-- The transforms of a 2 × 3 array along each axis are what they should be, those of complex numbers included. -/
example (m : Mem ℂ) : ∃ m', fftAxis complexOps [2, 3] (-1) m = .ok m' ∧ AlongAxis [2, 3] 1 (dft complexOps 3) m m' :=
  C62_fft_partial C62_complex [2, 3] (by decide) (-1) (by decide) (by decide) m

example (m : Mem ℂ) : ∃ m', fftAxis complexOps [2, 3, 5] 1 m = .ok m' ∧ AlongAxis [2, 3, 5] 1 (dft complexOps 3) m m' :=
  C62_fft_partial C62_complex [2, 3, 5] (by decide) 1 (by decide) (by decide) m

example (m m1 : Mem ℂ) : ∃ m', fftConvolve complexOps [4, 3] [4, 3] 0 m m1 = .ok m' ∧
    along [4, 3] 0 m' [2] 3 = along [4, 3] 0 m [2] 0 * along [4, 3] 0 m1 [2] 3 + along [4, 3] 0 m [2] 1 * along [4, 3] 0 m1 [2] 2 +
      along [4, 3] 0 m [2] 2 * along [4, 3] 0 m1 [2] 1 + along [4, 3] 0 m [2] 3 * along [4, 3] 0 m1 [2] 0 := by
  obtain ⟨m', e, h⟩ := C62_convolve_partial C62_complex [4, 3] (by decide) 0 (by decide) (by decide) m m1
  refine ⟨m', e, ?_⟩
  rw [h [2] (by decide) 3 (by decide)]
  simp [circular, Finset.sum_range_succ]

/-- The radix-2 transform refuses lengths that are not powers of two; so does `ifft` a zero extent. An axis that does not exist is
    not checked. -/
theorem C62_bad_arguments (x : List K) (hx : isPow2 x.length = false) (sh : List Nat) (axis : Int) (m : Mem K) :
    radix2 o x = .throws ∧ (sh.length ≤ normalizeAxis sh.length axis → fftAxis o sh axis m = .ub) ∧
      (0 ≤ axis → axis < sh.length → sh.getD axis.toNat 0 = 0 → ifftAxis o sh axis m = .throws) := by
  refine ⟨?_, ?_, ?_⟩
  · unfold radix2 radix2Fuel
    simp [hx]
  · intro h
    unfold fftAxis
    exact if_neg (by omega)
  · intro h1 h2 h3
    unfold ifftAxis
    rw [if_neg (by omega), if_pos h3]

example : isPow2 ([1, 2, 3] : List ℚ).length = false ∧ [2, 0].length ≤ normalizeAxis [2, 0].length 2 ∧ [2, 0].getD (1 : Int).toNat 0 = 0 := by
  decide

/-- Fewer slices in the second operand than in the first are read past their end. -/
theorem C62_product_short (s : StridedArr) (ss : List StridedArr) (my m : Mem K) : productLoop (s :: ss) [] my m = .ub := rfl

end Xt
