import Verif.Lemmas.DataLoaderPull
/-!
# Properties C61–C64: the data loader

`pulls ld rands X y k` is the state after `k` calls of `pull(X, y)` on a new loader; `rands i` is
what the random generator gives call `i`. `IsBatch h t b sample f idxs` says that tensor `t` has
shape `{b, sample...}` and holds, one after the other, the samples with the numbers `idxs`.
-/

set_option autoImplicit false

namespace DW.Props.LoaderP

open DW DW.Spec DW.Tensor DW.DL DW.DLL DW.Props.TensorP

variable {α : Type}

/-- `X` and `y` are two tensors of a program state, each empty or of the batch's shape. -/
structure Start (ld : Loader α) (h : Heap α) (X y : Handle) : Prop where
  reach : Reachable h
  ne : X ≠ y
  x : Accepts h X (ld.batch :: ld.dataset.shapeX)
  y : Accepts h y (ld.batch :: ld.dataset.shapeY)

theorem Start.inv {ld : Loader α} {h : Heap α} {X y : Handle} (s : Start ld h X y) :
    Inv ld X y ⟨h, 0⟩ :=
  ⟨reachable_wf s.reach, reachable_strided s.reach, s.ne, s.x, s.y, by simp, by simp⟩

/-- What the generator gives each call is a possible result of `randomIndices(b, n - 1)`. -/
def Draws (ld : Loader α) (rands : Nat → List Int) : Prop :=
  ld.shuffle = true → ∀ k, RandomIndices ld.batch.toNat (ld.dataset.size - 1) (rands k)

/-- **C62.** Every possible result of `randomIndices(num, upper_bound)` consists of `num` distinct
numbers in `[0, upper_bound]`. -/
theorem randomIndices_distinct {num : Nat} {upper : Int} {l : List Int} (h : RandomIndices num upper l) :
    l.Nodup ∧ (∀ v ∈ l, 0 ≤ v ∧ v ≤ upper) ∧ l.length = num := by
  obtain ⟨draws, acc, h1, h2, h3⟩ := h
  obtain ⟨a, b, c⟩ := drawUnique_sound (P := fun v => 0 ≤ v ∧ v ≤ upper) List.nodup_nil (by simp) h1 h2
  exact ⟨h3.nodup_iff.2 a, fun v hv => b v (h3.mem_iff.1 hv), by rw [h3.length_eq, c]⟩

/-- **C62.** The drawing loop ends as soon as the generator has produced `num` different numbers. -/
theorem randomIndices_terminates (num : Nat) (draws want : List Int) (h1 : want.Nodup)
    (h2 : num ≤ want.length) (h3 : ∀ v ∈ want, v ∈ draws) : ∃ l, drawUnique num [] draws = some l :=
  drawUnique_complete (by simp) h1 h2 (fun v hv => .inr (h3 v hv)) List.nodup_nil

example : drawUnique 2 [] [1, 1, 1, 0] = some [0, 1] := by decide

/-- The numbers of the samples in the batch that call `k` returns, `q` batches per epoch. -/
def batchOf (ld : Loader α) (rands : Nat → List Int) (k : Nat) : List Int :=
  if ld.shuffle then rands k
  else (List.range ld.batch.toNat).map fun i : Nat =>
    ((k % (ld.dataset.size / ld.batch.toNat + 1) * ld.batch.toNat + i : Nat) : Int)

theorem rand_ok {ld : Loader α} (lo : LoaderOk ld) {rands : Nat → List Int} (hd : Draws ld rands) (k : Nat)
    (hs : ld.shuffle = true) :
    ((rands k).length : Int) = ld.batch ∧ ∀ v ∈ rands k, 0 ≤ v ∧ v < ld.dataset.size := by
  obtain ⟨-, h2, h3⟩ := randomIndices_distinct (hd hs k)
  have := lo.batch
  exact ⟨by omega, fun v hv => by have := h2 v hv; omega⟩

theorem pulls_state {ld : Loader α} (lo : LoaderOk ld) (hb : 1 ≤ ld.batch) {h : Heap α} {X y : Handle}
    (st : Start ld h X y) {rands : Nat → List Int} (hd : Draws ld rands) : ∀ k : Nat,
    ∃ s, pulls ld rands X y k ⟨h, 0⟩ = (.ok (), s) ∧ Inv ld X y s ∧
      s.pos = (k % (ld.dataset.size / ld.batch.toNat + 1) * ld.batch.toNat : Nat)
  | 0 => ⟨⟨h, 0⟩, rfl, st.inv, by simp⟩
  | k + 1 => by
    obtain ⟨s, e, inv, hp⟩ := pulls_state lo hb st hd k
    obtain ⟨s', e', inv', hp', -⟩ := pull_spec lo inv (rands k) (fun hs _ => rand_ok lo hd k hs)
    refine ⟨s', ?_, inv', ?_⟩
    · unfold pulls; rw [M.bind_ok e, M.bind_ok e']; rfl
    · rw [hp', hp]
      obtain ⟨b, hbn⟩ := Int.eq_ofNat_of_zero_le lo.batch
      have hb1 : 1 ≤ b := by omega
      simp only [hbn, Int.toNat_natCast]
      set q := ld.dataset.size / b
      set m := k % (q + 1) with hm
      have hmq : m ≤ q := Nat.lt_succ_iff.1 (Nat.mod_lt _ (Nat.succ_pos _))
      have hnext : (k + 1) % (q + 1) = if m < q then m + 1 else 0 := by
        rw [← Nat.mod_add_mod, ← hm]
        split
        · exact Nat.mod_eq_of_lt (by omega)
        · have : m + 1 = q + 1 := by omega
          rw [this, Nat.mod_self]
      have hc : (((m * b : Nat) : Int) + (b : Int) ≤ ld.dataset.size) ↔ m < q := by
        have : m < q ↔ (m + 1) * b ≤ ld.dataset.size := (Nat.le_div_iff_mul_le (by omega)).trans Iff.rfl
        rw [this, Nat.succ_mul]; omega
      rw [hnext]
      by_cases hlt : m < q
      · rw [if_pos (hc.2 hlt), if_pos hlt, Nat.succ_mul]; push_cast; ring
      · rw [if_neg (fun h => hlt (hc.1 h)), if_neg hlt]; simp

/-- Both modes: call `k` returns true exactly when `k mod (floor(n/b) + 1) < floor(n/b)`, and then
both tensors hold the batch. -/
theorem epochs {ld : Loader α} (lo : LoaderOk ld) (hb : 1 ≤ ld.batch) {h : Heap α} {X y : Handle}
    (st : Start ld h X y) {rands : Nat → List Int} (hd : Draws ld rands) (k : Nat) :
    let q := ld.dataset.size / ld.batch.toNat
    ∃ s s', pulls ld rands X y k ⟨h, 0⟩ = (.ok (), s) ∧
      pull ld (rands k) X y s = (.ok (decide (k % (q + 1) < q)), s') ∧
      (k % (q + 1) < q →
        IsBatch s'.heap X ld.batch ld.dataset.shapeX ld.dataset.x (batchOf ld rands k) ∧
        IsBatch s'.heap y ld.batch ld.dataset.shapeY ld.dataset.y (batchOf ld rands k)) := by
  intro q
  obtain ⟨s, e, inv, hp⟩ := pulls_state lo hb st hd k
  obtain ⟨s', e', -, -, hbt, -⟩ := pull_spec lo inv (rands k) (fun hs _ => rand_ok lo hd k hs)
  have hc : s.pos + ld.batch ≤ ld.dataset.size ↔ k % (q + 1) < q := by
    rw [hp]
    obtain ⟨b, hbn⟩ := Int.eq_ofNat_of_zero_le lo.batch
    have hb1 : 1 ≤ b := by omega
    simp only [q, hbn, Int.toNat_natCast]
    set m := k % (ld.dataset.size / b + 1)
    have : m < ld.dataset.size / b ↔ (m + 1) * b ≤ ld.dataset.size :=
      (Nat.le_div_iff_mul_le (by omega)).trans Iff.rfl
    rw [this, Nat.succ_mul]; omega
  refine ⟨s, s', e, ?_, fun hk => ?_⟩
  · rw [e']
    simp only [hc]
  · have := hbt (hc.2 hk)
    have hidx : (if ld.shuffle then rands k else (List.range ld.batch.toNat).map fun i : Nat => s.pos + i)
        = batchOf ld rands k := by
      unfold batchOf
      split
      · rfl
      · rw [hp]; congr 1
    rwa [hidx] at this

/-! ## C61 -/

/-- **C61.** Without shuffling, with batch size `b ≥ 1` over `n` samples and any number `k` of
earlier calls, call number `k` returns true exactly when `k mod (floor(n/b) + 1) < floor(n/b)`:
`floor(n/b)` times true, once false, and again from the start. A true call leaves in `X` and `y`
the samples `m*b, m*b + 1, ..., m*b + b - 1` with `m = k mod (floor(n/b) + 1)`. -/
theorem sequential_epochs {ld : Loader α} (lo : LoaderOk ld) (hb : 1 ≤ ld.batch) (hs : ld.shuffle = false)
    {h : Heap α} {X y : Handle} (st : Start ld h X y) (rands : Nat → List Int) (k : Nat) :
    let b := ld.batch.toNat
    let q := ld.dataset.size / b
    let samples := (List.range b).map fun i : Nat => ((k % (q + 1) * b + i : Nat) : Int)
    ∃ s s', pulls ld rands X y k ⟨h, 0⟩ = (.ok (), s) ∧
      pull ld (rands k) X y s = (.ok (decide (k % (q + 1) < q)), s') ∧
      (k % (q + 1) < q →
        IsBatch s'.heap X ld.batch ld.dataset.shapeX ld.dataset.x samples ∧
        IsBatch s'.heap y ld.batch ld.dataset.shapeY ld.dataset.y samples) := by
  have := epochs lo hb st (rands := rands) (fun h => by rw [hs] at h; cases h) k
  simpa only [batchOf, hs, Bool.false_eq_true, if_false] using this

/-- A loader over five samples of shape {1} with batches of two. -/
def five (shuffle : Bool) : Loader Nat :=
  ⟨⟨5, [1], [1], fun i _ => i.toNat, fun i _ => i.toNat + 10⟩, 2, shuffle⟩

theorem fits_one {d : Int} (h : d ≤ 2147483647) : CountFits [d] := by
  intro k
  cases k with
  | zero => simp
  | succ k => simpa using h

theorem fits_two {d : Int} (h : d ≤ 2147483647) : CountFits [d, 1] := by
  intro k
  match k with
  | 0 => simp
  | 1 => simpa using h
  | k + 2 => simpa using h

theorem five_ok (s : Bool) : LoaderOk (five s) where
  batch := by simp [five]
  sx := by simp [five, Static]
  sy := by simp [five, Static]
  fx := fits_one (by decide)
  fy := fits_one (by decide)
  bx := fits_two (by simp [five])
  by' := fits_two (by simp [five])
  fits := by simp [five]

/-- A program with two default-constructed tensors. -/
def twoEmpty : Heap α := ⟨[{}, {}], []⟩

theorem twoEmpty_start (ld : Loader α) : Start ld (twoEmpty : Heap α) 0 1 where
  reach := by
    have h1 : Reachable (⟨[{}], []⟩ : Heap α) :=
      Reachable.step (h := ⟨[], []⟩) .new .init trivial (by intro u; simp [step, Tensor.new, M.bind_apply])
    exact Reachable.step .new h1 trivial (by intro u; simp [step, Tensor.new, M.bind_apply])
  ne := by decide
  x := ⟨{}, rfl, .inl rfl⟩
  y := ⟨{}, rfl, .inl rfl⟩

/-- Instance of C61: the second batch of five samples is samples 2 and 3, the third call returns
false, the fourth starts over. -/
example : LoaderOk (five false) ∧ Start (five false) twoEmpty 0 1 ∧
    batchOf (five false) (fun _ => []) 1 = [2, 3] ∧ batchOf (five false) (fun _ => []) 3 = [0, 1] ∧
    (pulls (five false) (fun _ => []) 0 1 2 ⟨twoEmpty, 0⟩).1 = .ok () ∧
    (pull (five false) [] 0 1 (pulls (five false) (fun _ => []) 0 1 2 ⟨twoEmpty, 0⟩).2).1 = .ok false ∧
    elem (pulls (five false) (fun _ => []) 0 1 2 ⟨twoEmpty, 0⟩).2.heap 1 1 = some (some 13) :=
  ⟨five_ok _, twoEmpty_start _, by decide, by decide, by decide +kernel, by decide +kernel, by decide +kernel⟩

/-! ## C62 -/

/-- The full property C62 as listed: within one epoch no sample is returned twice. -/
def ShuffledEpochVisitsOnce : Prop :=
  ∀ (ld : Loader Nat), LoaderOk ld → 1 ≤ ld.batch → ld.shuffle = true →
  ∀ (h : Heap Nat) (X y : Handle), Start ld h X y → ∀ rands, Draws ld rands →
  ∀ (k k' : Nat) (s s' : DL Nat) (l l' : List Int), k < k' → k' < ld.dataset.size / ld.batch.toNat →
    pulls ld rands X y (k + 1) ⟨h, 0⟩ = (.ok (), s) → IsBatch s.heap X ld.batch ld.dataset.shapeX ld.dataset.x l →
    pulls ld rands X y (k' + 1) ⟨h, 0⟩ = (.ok (), s') → IsBatch s'.heap X ld.batch ld.dataset.shapeX ld.dataset.x l' →
    ∀ v ∈ l, v ∉ l'

/-- **C62** is false: over five samples in shuffled batches of two, both batches of the epoch may
be samples 0 and 1. -/
theorem shuffled_epoch_refuted : ¬ ShuffledEpochVisitsOnce := by
  intro H
  have hd : Draws (five true) fun _ => [0, 1] := by
    intro _ k
    exact ⟨[1, 0], [0, 1], by decide, by decide, List.Perm.refl _⟩
  have run : ∀ k, k < 2 → ∃ s', pulls (five true) (fun _ => [0, 1]) 0 1 (k + 1) ⟨twoEmpty, 0⟩ = (.ok (), s') ∧
      IsBatch s'.heap 0 2 [1] (five true).dataset.x [0, 1] := by
    intro k hk
    obtain ⟨s, s', e, e', hb⟩ := epochs (five_ok true) (by decide) (twoEmpty_start _) hd k
    have hq : (five true).dataset.size / (five true).batch.toNat = 2 := by decide
    rw [hq] at hb
    refine ⟨s', ?_, (hb (by rw [Nat.mod_eq_of_lt (by omega)]; exact hk)).1⟩
    unfold pulls
    rw [M.bind_ok e, M.bind_ok e']; rfl
  obtain ⟨s, e, b⟩ := run 0 (by decide)
  obtain ⟨s', e', b'⟩ := run 1 (by decide)
  exact H (five true) (five_ok true) (by decide) rfl twoEmpty 0 1 (twoEmpty_start _) _ hd 0 1 s s' [0, 1] [0, 1]
    (by decide) (by decide) e b e' b' 0 (by simp) (by simp)

/-- **C62**, the part that holds: with shuffling, an epoch has `floor(n/b)` batches whatever the
generator gives, and every batch consists of `b` distinct samples of the dataset. Missing: different
batches of an epoch may repeat samples, see `shuffled_epoch_refuted`. -/
theorem shuffled_epochs_partial {ld : Loader α} (lo : LoaderOk ld) (hb : 1 ≤ ld.batch)
    (hs : ld.shuffle = true) {h : Heap α} {X y : Handle} (st : Start ld h X y) {rands : Nat → List Int}
    (hd : Draws ld rands) (k : Nat) :
    let q := ld.dataset.size / ld.batch.toNat
    ∃ s s', pulls ld rands X y k ⟨h, 0⟩ = (.ok (), s) ∧
      pull ld (rands k) X y s = (.ok (decide (k % (q + 1) < q)), s') ∧
      (k % (q + 1) < q → ∃ samples : List Int, samples.Nodup ∧ (samples.length : Int) = ld.batch ∧
        (∀ v ∈ samples, 0 ≤ v ∧ v < ld.dataset.size) ∧
        IsBatch s'.heap X ld.batch ld.dataset.shapeX ld.dataset.x samples ∧
        IsBatch s'.heap y ld.batch ld.dataset.shapeY ld.dataset.y samples) := by
  intro q
  obtain ⟨s, s', e, e', hbt⟩ := epochs lo hb st hd k
  refine ⟨s, s', e, e', fun hk => ⟨rands k, ?_, ?_, ?_, ?_⟩⟩
  · exact (randomIndices_distinct (hd hs k)).1
  · exact (rand_ok lo hd k hs).1
  · exact (rand_ok lo hd k hs).2
  · simpa only [batchOf, hs, if_true] using hbt hk

/-! ## C63 -/

/-- **C63.** A call that returns true leaves both tensors with shape `{b, sample shape...}` and
element `e` of `X` equal to element `e mod p` of the sample in position `e / p`, where `p` is the
number of elements of one sample; the same for `y`. This covers every element of both tensors. All
other tensors are as before. -/
theorem pull_layout {ld : Loader α} (lo : LoaderOk ld) {X y : Handle} {s : DL α} (inv : Inv ld X y s)
    (rand : List Int)
    (hr : ld.shuffle = true → RandomIndices ld.batch.toNat (ld.dataset.size - 1) rand)
    (hfull : s.pos + ld.batch ≤ ld.dataset.size) :
    ∃ (s' : DL α) (idxs : List Int) (dX dY : Desc), pull ld rand X y s = (.ok true, s') ∧
      idxs = (if ld.shuffle then rand else (List.range ld.batch.toNat).map fun i : Nat => s.pos + i) ∧
      s'.heap.descs[X]? = some dX ∧ dX.shape = ld.batch :: ld.dataset.shapeX ∧
      s'.heap.descs[y]? = some dY ∧ dY.shape = ld.batch :: ld.dataset.shapeY ∧
      (∀ e < dX.total, ∃ hi : e / ld.dataset.shapeX.prod.toNat < idxs.length,
        elem s'.heap X e = some (some (ld.dataset.x
          (idxs[e / ld.dataset.shapeX.prod.toNat]) (e % ld.dataset.shapeX.prod.toNat)))) ∧
      (∀ e < dY.total, ∃ hi : e / ld.dataset.shapeY.prod.toNat < idxs.length,
        elem s'.heap y e = some (some (ld.dataset.y
          (idxs[e / ld.dataset.shapeY.prod.toNat]) (e % ld.dataset.shapeY.prod.toNat)))) ∧
      (∀ u, u ≠ X → u ≠ y → ∀ i, elem s'.heap u i = elem s.heap u i) := by
  obtain ⟨s', e', inv', -, hb, fr⟩ := pull_spec lo inv rand (fun hs _ => by
    obtain ⟨-, h2, h3⟩ := randomIndices_distinct (hr hs)
    have := lo.batch
    exact ⟨by omega, fun v hv => by have := h2 v hv; omega⟩)
  obtain ⟨⟨⟨dX, x1, x2⟩, xl, xc⟩, ⟨⟨dY, y1, y2⟩, yl, yc⟩⟩ := hb hfull
  have cover : ∀ (t : Handle) (d : Desc) (sh : Shape) (f : Int → Nat → α) (idxs : List Int),
      s'.heap.descs[t]? = some d → d.shape = ld.batch :: sh → (idxs.length : Int) = ld.batch → Static sh →
      (∀ i, ∀ hi : i < idxs.length, ∀ j : Nat, (j : Int) < sh.prod →
        elem s'.heap t (i * sh.prod.toNat + j) = some (some (f idxs[i] j))) →
      ∀ e < d.total, ∃ hi : e / sh.prod.toNat < idxs.length,
        elem s'.heap t e = some (some (f idxs[e / sh.prod.toNat] (e % sh.prod.toNat))) := by
    intro t d sh f idxs hd hsh hl hs hc e he
    have hp := prod_nonneg hs
    obtain ⟨p, hpn⟩ := Int.eq_ofNat_of_zero_le hp
    have htot : d.total = idxs.length * p := by
      rcases inv'.wf.owned t d hd with ⟨-, -, h0⟩ | ⟨_, _, _, _, _, _, h5⟩
      · omega
      · rw [hsh, List.prod_cons, ← hl, hpn] at h5; exact_mod_cast h5
    have hp0 : 0 < p := by
      rcases Nat.eq_zero_or_pos p with h | h
      · rw [htot, h] at he; simp at he
      · exact h
    simp only [hpn, Int.toNat_natCast] at hc ⊢
    have hdiv : e / p < idxs.length := by
      rw [Nat.div_lt_iff_lt_mul hp0]; omega
    refine ⟨hdiv, ?_⟩
    have := hc (e / p) hdiv (e % p) (by exact_mod_cast Nat.mod_lt _ hp0)
    rwa [Nat.div_add_mod'] at this
  refine ⟨s', _, dX, dY, ?_, rfl, x1, x2, y1, y2, cover X dX _ _ _ x1 x2 xl lo.sx xc,
    cover y dY _ _ _ y1 y2 yl lo.sy yc, fun u h1 h2 => (fr u h1 h2).2⟩
  rw [e', decide_eq_true hfull]

/-- **C63.** A non-empty `X` of another shape makes `pull` throw. -/
theorem pull_throws_x {ld : Loader α} (lo : LoaderOk ld) {X y : Handle} {s : DL α} (w : WF s.heap)
    (st : Strided s.heap) (hne : X ≠ y) (d : Desc) (hd : s.heap.descs[X]? = some d) (h0 : d.total ≠ 0)
    (hsh : d.shape ≠ ld.batch :: ld.dataset.shapeX) (hy : Accepts s.heap y (ld.batch :: ld.dataset.shapeY))
    (rand : List Int) : (pull ld rand X y s).1 = .throw .dw := by
  have a1 : allocIfEmpty X (makeShape ld.batch ld.dataset.shapeX) s.heap = (.ok (), s.heap) := by
    simp only [allocIfEmpty]; rw [M.bind_ok (desc_some hd), if_neg h0]; rfl
  obtain ⟨dy, ey, oky⟩ := hy
  obtain ⟨h2, b, a2, w2, st2, hy2, fr2⟩ := allocIfEmpty_spec w st ey (static_cons.2 ⟨lo.batch, lo.sy⟩) lo.by' oky
  have hd2 : h2.descs[X]? = some d := (fr2 X hne).1.trans hd
  have hk : (d.shape == makeShape ld.batch ld.dataset.shapeX) = false := by
    simp only [makeShape, beq_eq_false_iff_ne]; exact hsh
  unfold pull
  rw [M.bind_ok (onHeap_eq a1), M.bind_ok (onHeap_eq (s := ⟨s.heap, s.pos⟩) (x := allocIfEmpty y (makeShape ld.batch ld.dataset.shapeY)) a2),
    M.bind_ok (onHeap_eq (s := ⟨h2, s.pos⟩) (desc_some hd2)), hk, M.bind_throw (M.check_false_apply _)]

/-- **C63.** A non-empty `y` of another shape makes `pull` throw. -/
theorem pull_throws_y {ld : Loader α} (lo : LoaderOk ld) {X y : Handle} {s : DL α} (w : WF s.heap)
    (st : Strided s.heap) (hne : X ≠ y) (d : Desc) (hd : s.heap.descs[y]? = some d) (h0 : d.total ≠ 0)
    (hsh : d.shape ≠ ld.batch :: ld.dataset.shapeY) (hx : Accepts s.heap X (ld.batch :: ld.dataset.shapeX))
    (rand : List Int) : (pull ld rand X y s).1 = .throw .dw := by
  obtain ⟨dx, ex, okx⟩ := hx
  obtain ⟨h1, b, a1, w1, st1, hx1, fr1⟩ := allocIfEmpty_spec w st ex (static_cons.2 ⟨lo.batch, lo.sx⟩) lo.bx okx
  have hd1 : h1.descs[y]? = some d := (fr1 y hne.symm).1.trans hd
  have a2 : allocIfEmpty y (makeShape ld.batch ld.dataset.shapeY) h1 = (.ok (), h1) := by
    simp only [allocIfEmpty]; rw [M.bind_ok (desc_some hd1), if_neg h0]; rfl
  obtain ⟨dx', c, x1, x2, -⟩ := hx1.1.ex
  have hkx : (dx'.shape == makeShape ld.batch ld.dataset.shapeX) = true := by rw [x2]; simp [makeShape]
  have hk : (d.shape == makeShape ld.batch ld.dataset.shapeY) = false := by
    simp only [makeShape, beq_eq_false_iff_ne]; exact hsh
  unfold pull
  rw [M.bind_ok (onHeap_eq (x := allocIfEmpty X (makeShape ld.batch ld.dataset.shapeX)) a1),
    M.bind_ok (onHeap_eq (s := ⟨h1, s.pos⟩) a2),
    M.bind_ok (onHeap_eq (s := ⟨h1, s.pos⟩) (desc_some x1)), hkx, M.bind_ok (M.check_true_apply _),
    M.bind_ok (onHeap_eq (s := ⟨h1, s.pos⟩) (desc_some hd1)), hk, M.bind_throw (M.check_false_apply _)]

/-- Instances of C63: a call on a new loader, and one with a tensor of a wrong shape. -/
example : LoaderOk (five false) ∧ Inv (five false) 0 1 ⟨twoEmpty, 0⟩ ∧
    (0 : Int) + (five false).batch ≤ (five false).dataset.size ∧
    (pull (five false) [] 0 1 ⟨⟨[{ strides := [1], shape := [3], memory := some 0, data := some ⟨0, 0⟩, total := 3 }, {}],
      [some [none, none, none]]⟩, 0⟩).1 = .throw .dw :=
  ⟨five_ok _, (twoEmpty_start _).inv, by decide, by decide +kernel⟩

/-! ## C64 -/

/-- The full property C64 as listed: every epoch ends, for every batch size. -/
def EveryEpochEnds : Prop :=
  ∀ (ld : Loader Nat), LoaderOk ld → ∀ (h : Heap Nat) (X y : Handle), Start ld h X y →
  ∀ rands, Draws ld rands → ∃ k s s', pulls ld rands X y k ⟨h, 0⟩ = (.ok (), s) ∧
    pull ld (rands k) X y s = (.ok false, s')

/-- With batch size 0 every call returns true, whatever the dataset and however often `pull` is
called: an epoch never ends. -/
theorem batch_zero_never_ends {ld : Loader α} (lo : LoaderOk ld) (hb : ld.batch = 0) {h : Heap α}
    {X y : Handle} (st : Start ld h X y) {rands : Nat → List Int} (hd : Draws ld rands) (k : Nat) :
    ∃ s s', pulls ld rands X y k ⟨h, 0⟩ = (.ok (), s) ∧ pull ld (rands k) X y s = (.ok true, s') := by
  have key : ∀ k : Nat, ∃ s, pulls ld rands X y k ⟨h, 0⟩ = (.ok (), s) ∧ Inv ld X y s := by
    intro k
    induction k with
    | zero => exact ⟨_, rfl, st.inv⟩
    | succ k ih =>
      obtain ⟨s, e, inv⟩ := ih
      obtain ⟨s', e', inv', -⟩ := pull_spec lo inv (rands k) (fun hs _ => rand_ok lo hd k hs)
      exact ⟨s', by unfold pulls; rw [M.bind_ok e, M.bind_ok e']; rfl, inv'⟩
  obtain ⟨s, e, inv⟩ := key k
  obtain ⟨s', e', -⟩ := pull_spec lo inv (rands k) (fun hs _ => rand_ok lo hd k hs)
  refine ⟨s, s', e, ?_⟩
  rw [e', decide_eq_true]
  rw [hb, Int.add_zero]; exact inv.pos1

/-- A loader with batch size 0. -/
def zeroBatch : Loader Nat := { five false with batch := 0 }

theorem zeroBatch_ok : LoaderOk zeroBatch where
  batch := by simp [zeroBatch]
  sx := by simp [zeroBatch, five, Static]
  sy := by simp [zeroBatch, five, Static]
  fx := fits_one (by decide)
  fy := fits_one (by decide)
  bx := fits_two (by simp [zeroBatch])
  by' := fits_two (by simp [zeroBatch])
  fits := by simp [zeroBatch, five]

/-- **C64** is false for batch size 0, which the constructor accepts. -/
theorem every_epoch_ends_refuted : ¬ EveryEpochEnds := by
  intro H
  have hd : Draws zeroBatch fun _ => [] := fun h => by cases h
  obtain ⟨k, s, s', e, e'⟩ := H zeroBatch zeroBatch_ok twoEmpty 0 1 (twoEmpty_start _) _ hd
  obtain ⟨t, t', f, f'⟩ := batch_zero_never_ends zeroBatch_ok rfl (twoEmpty_start _) hd k
  rw [e] at f
  cases f
  rw [e'] at f'
  cases f'

/-- **C64** for every batch size of at least 1, shuffled or not: after any number `k` of calls, the
epoch ends with a false call at most `floor(n/b)` calls later. Missing: batch size 0, where it is
false. -/
theorem epoch_ends_partial {ld : Loader α} (lo : LoaderOk ld) (hb : 1 ≤ ld.batch) {h : Heap α}
    {X y : Handle} (st : Start ld h X y) {rands : Nat → List Int} (hd : Draws ld rands) (k : Nat) :
    ∃ k' s s', k ≤ k' ∧ k' ≤ k + ld.dataset.size / ld.batch.toNat ∧
      pulls ld rands X y k' ⟨h, 0⟩ = (.ok (), s) ∧ pull ld (rands k') X y s = (.ok false, s') := by
  set q := ld.dataset.size / ld.batch.toNat with hq
  have hm : k % (q + 1) ≤ q := Nat.lt_succ_iff.1 (Nat.mod_lt _ (Nat.succ_pos _))
  obtain ⟨s, s', e, e', -⟩ := epochs lo hb st hd (k + (q - k % (q + 1)))
  refine ⟨k + (q - k % (q + 1)), s, s', by omega, by omega, e, ?_⟩
  rw [e']
  have : (k + (q - k % (q + 1))) % (q + 1) = q := by
    rw [← Nat.mod_add_mod]
    rw [show k % (q + 1) + (q - k % (q + 1)) = q by omega]
    exact Nat.mod_eq_of_lt (by omega)
  simp only [← hq, this]
  simp

end DW.Props.LoaderP
