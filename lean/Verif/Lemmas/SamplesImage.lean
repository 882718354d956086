import Verif.Lemmas.Samples
import Verif.Props.Image
/-! # Lemmas about reading images into the tensors of a batch -/

set_option autoImplicit false

namespace DW.SamplesL

open DW DW.Spec DW.Samples DW.Tensor DW.Image DW.ImageL DW.Props.ImageP

variable {α : Type}

theorem _root_.DW.Spec.Window.mono {h h' : Heap α} {t : Handle} {d : Desc} {p : Ptr} {n : Nat} (w : Window h t d p n) (l : SameLayout h h') : Window h' t d p n :=
  ⟨by rw [l.descs]; exact w.desc, w.total, w.data, fun i hi => by rw [l.valid]; exact w.cells i hi⟩

theorem copyRows_at (ofByte : Nat → α) (dst : Ptr) (n : Nat) : ∀ (rows : List (List Nat)) (i : Nat) (h : Heap α),
    (∀ row ∈ rows, n ≤ row.length) → (∀ j < (i + rows.length) * n, (cell? h ⟨dst.block, dst.off + j⟩).isSome) →
    ∃ h', copyRows ofByte dst n i rows h = (.ok (), h') ∧ SameLayout h h' ∧
      (∀ (k j : Nat) (hk : k < rows.length), j < n → cell? h' ⟨dst.block, dst.off + ((i + k) * n + j)⟩ = some (some (ofByte (rows[k].getD j 0)))) ∧
      (∀ q : Ptr, ¬ (q.block = dst.block ∧ dst.off + i * n ≤ q.off ∧ q.off < dst.off + (i + rows.length) * n) → cell? h' q = cell? h q)
  | [], i, h, _, _ => ⟨h, rfl, .refl h, by simp, fun _ _ => rfl⟩
  | row :: rows, i, h, hl, hv => by
    have hlen : (row :: rows).length = rows.length + 1 := rfl
    have e1n : (i + 1) * n = i * n + n := by rw [Nat.add_mul, Nat.one_mul]
    have elen : (i + (row :: rows).length) * n = i * n + n + rows.length * n := by rw [hlen]; ring
    have elen' : (i + 1 + rows.length) * n = i * n + n + rows.length * n := by ring
    obtain ⟨h1, e1, l1, f1, g1⟩ := fillLoop_spec (α := α) ⟨dst.block, dst.off + i * n⟩ (fun i => ofByte (row.getD i 0)) n 0 h
      (fun j _ hj => by
        have := hv (i * n + j) (by rw [elen]; have := Nat.zero_le (rows.length * n); omega)
        simpa [Nat.add_assoc] using this)
    obtain ⟨h2, e2, l2, f2, g2⟩ := copyRows_at ofByte dst n rows (i + 1) h1 (fun r hr => hl r (by simp [hr])) (fun j hj => by
      rw [l1.valid]
      exact hv j (by rw [elen]; rw [elen'] at hj; exact hj))
    refine ⟨h2, ?_, l1.trans l2, ?_, ?_⟩
    · rw [copyRows, copyRow, if_pos (hl row (by simp)), M.bind_ok e1, e2]
    · intro k j hk hj
      cases k with
      | zero =>
        rw [g2 _ (by simp only [true_and]; rw [e1n, Nat.add_zero]; omega)]
        have := f1 j (by omega) (by omega)
        simpa [Nat.add_assoc] using this
      | succ k =>
        have := f2 k j (by simpa using hk) hj
        rw [show i + (k + 1) = i + 1 + k from by omega]
        simpa using this
    · intro q hq
      rw [elen] at hq
      rw [g2 q (by rw [e1n, elen']; rintro ⟨h1, h2, h3⟩; exact hq ⟨h1, by omega, h3⟩), g1 q (by
        rintro ⟨h1, h2, h3⟩
        simp only [Nat.add_zero] at h2 h3
        exact hq ⟨h1, h2, by have := Nat.zero_le (rows.length * n); omega⟩)]

/-- Reading a picture of the right size into a tensor that is not empty. -/
theorem read_window {h : Heap α} {t : Handle} {d : Desc} {p : Ptr} {n : Nat} (w : Window h t d p n) (ofByte : Nat → α) {fs : Files}
    {path : View} {pic : Picture} (hp : Decodes fs path pic) (dp : Dense pic) (hn : n = pic.height * pic.width * pic.channels) :
    ∃ h', readImage ofByte fs path t h = (.ok .returned, h') ∧ SameLayout h h' ∧
      (∀ i < n, cell? h' ⟨p.block, p.off + i⟩ = some (some (ofByte (Picture.byte pic i)))) ∧ ∀ q, Outside p n q → cell? h' q = cell? h q := by
  obtain ⟨f1, f2, f3⟩ := dp.factors
  have hwc : 0 < pic.width * pic.channels := Nat.mul_pos f2 f3
  have hn' : n = pic.rows.length * (pic.width * pic.channels) := by rw [hn, dp.height, Nat.mul_assoc]
  have hprep : prepare t pic.height pic.width pic.channels h = (.ok (), h) := by
    rw [prepare, M.bind_ok (desc_some w.desc), if_neg (by rw [w.total, hn]; exact dp.pos.ne')]
    have hl : (M.lift (totalOf pic.height pic.width pic.channels) : M (Heap α) Nat) h = (.ok (pic.height * pic.width * pic.channels), h) := by
      rw [dp.total]; rfl
    rw [M.bind_ok hl, show (pic.height * pic.width * pic.channels == d.total) = true by rw [w.total, hn]; simp]
    rfl
  obtain ⟨h', e, l, g, o⟩ := copyRows_at ofByte p (pic.width * pic.channels) pic.rows 0 h (fun r hr => (dp.width r hr).ge)
    (fun j hj => w.cells j (by rw [Nat.zero_add, ← hn'] at hj; exact hj))
  have hstore : store ofByte t pic h = (.ok (), h') := by
    have hfit := fitsInt_nat dp.le.2
    push_cast at hfit
    have hptr : elemPtr t 0 h = (.ok p, h) := by simp [elemPtr, M.bind_apply, desc_some w.desc, w.data]
    rw [store, if_pos hfit, M.bind_ok hptr, e]
  refine ⟨h', by rw [decodes_run hp, M.bind_ok hprep, M.bind_ok hstore]; rfl, l, fun i hi => ?_, fun q hq => o q fun hh => hq ?_⟩
  · have hy : i / (pic.width * pic.channels) < pic.rows.length := Nat.div_lt_of_lt_mul (by rw [Nat.mul_comm, ← hn']; exact hi)
    have := g _ _ hy (Nat.mod_lt i hwc)
    rw [Nat.zero_add, Nat.div_add_mod'] at this
    rw [this, Picture.byte, List.getD_eq_getElem?_getD (l := pic.rows), List.getElem?_eq_getElem hy, Option.getD_some]
  · rw [Nat.zero_mul, Nat.zero_add, ← hn', Nat.add_zero] at hh
    exact hh

theorem mapLoop_spec (p : Ptr) (f : α → α) (v : Nat → α) (n i : Nat) (h : Heap α)
    (hv : ∀ j, i ≤ j → j < i + n → cell? h ⟨p.block, p.off + j⟩ = some (some (v j))) :
    ∃ h', mapLoop p f i n h = (.ok (), h') ∧ SameLayout h h' ∧
      (∀ j, i ≤ j → j < i + n → cell? h' ⟨p.block, p.off + j⟩ = some (some (f (v j)))) ∧
      (∀ q : Ptr, ¬ (q.block = p.block ∧ p.off + i ≤ q.off ∧ q.off < p.off + i + n) → cell? h' q = cell? h q) := by
  induction n generalizing i h with
  | zero => exact ⟨h, rfl, .refl h, by intro j; omega, fun _ _ => rfl⟩
  | succ n ih =>
    have hc := hv i (le_refl _) (by omega)
    set h1 := setCell h ⟨p.block, p.off + i⟩ (some (f (v i))) with hh1
    have hstore : storeCell ⟨p.block, p.off + i⟩ (some (f (v i))) h = (.ok (), h1) := storeCell_of_cell? hc
    have hl : SameLayout h h1 := setCell_sameLayout _ _ _
    obtain ⟨h', e, l, a, b⟩ := ih (i + 1) h1 (by
      intro j hj1 hj2
      rw [hh1, cell?_setCell, if_neg (by rintro ⟨hp, -⟩; simp only [Ptr.mk.injEq] at hp; omega)]
      exact hv j (by omega) (by omega))
    refine ⟨h', ?_, hl.trans l, ?_, ?_⟩
    · simp only [mapLoop]
      rw [M.bind_ok (loadCell_of_cell? hc)]
      simp only
      rw [M.bind_ok hstore, e]
    · intro j h1' h2'
      by_cases hj : j = i
      · subst hj
        rw [b]
        · rw [hh1, cell?_setCell]; simp [hc]
        · simp
      · exact a j (by omega) (by omega)
    · intro q hq
      rw [b q (by intro hh; apply hq; omega), hh1, cell?_setCell, if_neg]
      rintro ⟨rfl, -⟩
      apply hq; simp

theorem normalize_window {h : Heap α} {t : Handle} {d : Desc} {p : Ptr} {n : Nat} (w : Window h t d p n) (div : α → α) {v : Nat → α}
    (hv : ∀ j < n, cell? h ⟨p.block, p.off + j⟩ = some (some (v j))) :
    ∃ h', normalize div t h = (.ok (), h') ∧ SameLayout h h' ∧ (∀ j < n, cell? h' ⟨p.block, p.off + j⟩ = some (some (div (v j)))) ∧
      ∀ q, Outside p n q → cell? h' q = cell? h q := by
  obtain ⟨h', e, l, a, b⟩ := mapLoop_spec p div v n 0 h fun j _ hj => hv j (by omega)
  refine ⟨h', ?_, l, fun j hj => a j (by omega) (by omega), fun q hq => b q fun hh => hq (by simpa using hh)⟩
  unfold normalize
  rw [M.bind_ok (desc_some w.desc), w.total, w.data]
  cases n with
  | zero => exact e
  | succ n => exact e

theorem moveElem_spec {h : Heap α} {src dst : Ptr} {i j : Nat} {a : α} (hs : cell? h ⟨src.block, src.off + j⟩ = some (some a))
    (hd : (cell? h ⟨dst.block, dst.off + i⟩).isSome) : moveElem src dst i j h = (.ok (), setCell h ⟨dst.block, dst.off + i⟩ (some a)) := by
  obtain ⟨c, hc⟩ := Option.isSome_iff_exists.1 hd
  unfold moveElem
  rw [M.bind_ok (loadCell_of_cell? hs)]
  exact storeCell_of_cell? hc

theorem chwLoop_spec {src dst : Ptr} (hne : src.block ≠ dst.block) (v : Nat → α) : ∀ (n t : Nat) (h : Heap α), t + n = 1024 →
    (∀ j < 3072, cell? h ⟨src.block, src.off + j⟩ = some (some (v j))) → (∀ j < 3072, (cell? h ⟨dst.block, dst.off + j⟩).isSome) →
    ∃ h', chwLoop src dst 3072 (3 * t) t h = (.ok (), h') ∧ SameLayout h h' ∧
      (∀ c k, c < 3 → t ≤ k → k < 1024 → cell? h' ⟨dst.block, dst.off + (c * 1024 + k)⟩ = some (some (v (3 * k + c)))) ∧
      ∀ q : Ptr, (∀ c k, c < 3 → t ≤ k → k < 1024 → q ≠ ⟨dst.block, dst.off + (c * 1024 + k)⟩) → cell? h' q = cell? h q
  | 0, t, h, ht, _, _ => by
    refine ⟨h, ?_, .refl h, fun c k _ h1 h2 => by omega, fun _ _ => rfl⟩
    rw [chwLoop, if_neg (by omega)]
    rfl
  | n + 1, t, h, ht, hs, hd => by
    have hsrc : ∀ (h : Heap α) (i : Nat) (a : α) (j : Nat), cell? (setCell h ⟨dst.block, dst.off + i⟩ (some a)) ⟨src.block, src.off + j⟩ =
        cell? h ⟨src.block, src.off + j⟩ := fun h i a j => by
      rw [cell?_setCell, if_neg]
      rintro ⟨hp, -⟩
      simp only [Ptr.mk.injEq] at hp
      exact hne hp.1.symm
    let h1 := setCell h ⟨dst.block, dst.off + t⟩ (some (v (3 * t)))
    let h2 := setCell h1 ⟨dst.block, dst.off + (t + 32 * 32)⟩ (some (v (3 * t + 1)))
    let h3 := setCell h2 ⟨dst.block, dst.off + (t + 2 * (32 * 32))⟩ (some (v (3 * t + 2)))
    have l1 : SameLayout h h1 := setCell_sameLayout _ _ _
    have l2 : SameLayout h1 h2 := setCell_sameLayout _ _ _
    have l3 : SameLayout h2 h3 := setCell_sameLayout _ _ _
    have e1 : moveElem src dst t (3 * t) h = (.ok (), h1) := moveElem_spec (hs _ (by omega)) (hd _ (by omega))
    have e2 : moveElem src dst (t + 32 * 32) (3 * t + 1) h1 = (.ok (), h2) :=
      moveElem_spec (by rw [hsrc]; exact hs _ (by omega)) (by rw [l1.valid]; exact hd _ (by omega))
    have e3 : moveElem src dst (t + 2 * (32 * 32)) (3 * t + 2) h2 = (.ok (), h3) :=
      moveElem_spec (by rw [hsrc, hsrc]; exact hs _ (by omega)) (by rw [l2.valid, l1.valid]; exact hd _ (by omega))
    obtain ⟨h', e, l, a, b⟩ := chwLoop_spec hne v n (t + 1) h3 (by omega) (fun j hj => by rw [hsrc, hsrc, hsrc]; exact hs j hj)
      (fun j hj => by rw [l3.valid, l2.valid, l1.valid]; exact hd j hj)
    refine ⟨h', ?_, ((l1.trans l2).trans l3).trans l, fun c k hc h1' h2' => ?_, fun q hq => ?_⟩
    · rw [chwLoop, if_pos (by omega), M.bind_ok e1, M.bind_ok e2, M.bind_ok e3]
      exact e
    · by_cases hk : k = t
      · subst hk
        rw [b _ fun c' k' hc' h1 h2 hp => by simp only [Ptr.mk.injEq] at hp; omega]
        obtain rfl | rfl | rfl : c = 0 ∨ c = 1 ∨ c = 2 := by omega
        · show cell? (setCell (setCell (setCell _ _ _) _ _) _ _) _ = _
          rw [cell?_setCell, if_neg (by rintro ⟨hp, -⟩; simp only [Ptr.mk.injEq] at hp; omega), cell?_setCell,
            if_neg (by rintro ⟨hp, -⟩; simp only [Ptr.mk.injEq] at hp; omega), cell?_setCell,
            if_pos ⟨by simp, hd _ (by omega)⟩]
          rfl
        · show cell? (setCell (setCell h1 _ _) _ _) _ = _
          rw [cell?_setCell, if_neg (by rintro ⟨hp, -⟩; simp only [Ptr.mk.injEq] at hp; omega), cell?_setCell,
            if_pos ⟨by simp only [Ptr.mk.injEq, true_and]; omega, by rw [l1.valid]; exact hd _ (by omega)⟩]
        · show cell? (setCell h2 _ _) _ = _
          rw [cell?_setCell, if_pos ⟨by simp only [Ptr.mk.injEq, true_and]; omega, by rw [l2.valid, l1.valid]; exact hd _ (by omega)⟩]
      · exact a c k hc (by omega) h2'
    · rw [b q fun c k hc h1 h2 => hq c k hc (by omega) h2]
      have n0 := hq 0 t (by omega) (le_refl _) (by omega)
      have n1 := hq 1 t (by omega) (le_refl _) (by omega)
      have n2 := hq 2 t (by omega) (le_refl _) (by omega)
      show cell? (setCell (setCell (setCell _ _ _) _ _) _ _) _ = _
      rw [cell?_setCell, if_neg fun hp => n2 (by rw [← hp.1]; simp only [Ptr.mk.injEq, true_and]; omega), cell?_setCell,
        if_neg fun hp => n1 (by rw [← hp.1]; simp only [Ptr.mk.injEq, true_and]; omega), cell?_setCell,
        if_neg fun hp => n0 (by rw [← hp.1]; simp only [Ptr.mk.injEq, true_and]; omega)]

theorem onTensors_ok {β : Type} {x : M (Heap α) β} {s : Cifar α} {a : β} {h' : Heap α} (h : x s.heap = (.ok a, h')) :
    onTensors x s = (.ok a, ⟨h', s.image⟩) := by
  unfold onTensors
  rw [h]

theorem onTensors_throw {β : Type} {x : M (Heap α) β} {s : Cifar α} {e : Exn} {h' : Heap α} (h : x s.heap = (.throw e, h')) :
    onTensors x s = (.throw e, ⟨h', s.image⟩) := by
  unfold onTensors
  rw [h]

/-- The copy and the loop, when `m_image` is ready. -/
theorem hwc_ready {h : Heap α} {u t : Handle} {d du : Desc} {p r : Ptr} (w : Window h t d p 3072) (wu : Window h u du r 3072)
    (hsh : d.shape = du.shape) (hst : d.strides = du.strides) (hne : r.block ≠ p.block) {v : Nat → α}
    (hv : ∀ j < 3072, cell? h ⟨p.block, p.off + j⟩ = some (some (v j))) :
    ∃ h1 h2, copyTo t u h = (.ok (), h1) ∧ SameLayout h h1 ∧ chwLoop r p d.total 0 0 h1 = (.ok (), h2) ∧ SameLayout h1 h2 ∧
      (∀ c k, c < 3 → k < 1024 → cell? h2 ⟨p.block, p.off + (c * 1024 + k)⟩ = some (some (v (3 * k + c)))) ∧
      ∀ q, Outside p 3072 q → Outside r 3072 q → cell? h2 q = cell? h q := by
  obtain ⟨h1, e1, l1, a1, b1⟩ := copyLoop_spec p r 3072 0 h (fun j _ hj => w.cells j (by omega)) (fun j _ hj => wu.cells j (by omega))
    (.inl (Ne.symm hne))
  obtain ⟨h2, e2, l2, a2, b2⟩ := chwLoop_spec hne v 1024 0 h1 rfl (fun j hj => by rw [a1 j (by omega) (by omega)]; exact hv j hj)
    (fun j hj => by rw [l1.valid]; exact w.cells j hj)
  refine ⟨h1, h2, ?_, l1, by rw [w.total]; exact e2, l2, fun c k hc hk => a2 c k hc (by omega) hk, fun q hq hr => ?_⟩
  · rw [copyTo, M.bind_ok (desc_some w.desc), M.bind_ok (desc_some wu.desc), hsh, hst]
    simp only [beq_self_eq_true, Bool.and_self, wu.total, w.total, w.data, wu.data]
    show copyN (some p) (some r) 3072 h = _
    rw [copyN, if_neg (by simp [overlaps, Ne.symm hne])]
    exact e1
  · rw [b2 q fun c k hc _ hk hp => hq (by rw [hp]; exact ⟨rfl, by simp, by simp; omega⟩), b1 q fun hh => hr (by simpa using hh)]

theorem ofShape_new {shape : Shape} (hs : Static shape) (hf : CountFits shape) (h : Heap α) : ∃ (hn : Heap α) (dn : Desc),
    ofShape shape h = (.ok h.descs.length, hn) ∧ hn.descs = h.descs ++ [dn] ∧ dn.shape = shape ∧ dn.strides = calculateStrides shape ∧
    dn.total = shape.prod.toNat ∧ dn.data = some ⟨h.blocks.length, 0⟩ ∧ hn.blocks = h.blocks ++ [some (List.replicate shape.prod.toNat none)] := by
  have ha := allocate_ok (h := { h with descs := h.descs ++ [({} : Desc)] }) (t := h.descs.length) (d := {}) (by simp) hs hf
  refine ⟨_, _, by rw [Props.TensorP.ofShape_eq, M.bind_ok ha]; rfl, by simp [allocHeap]; rfl, rfl, rfl, rfl, rfl, rfl⟩

theorem new_cell {h : Heap α} {bs : List (Option (List (Option α)))} {n i : Nat} (hb : h.blocks = bs ++ [some (List.replicate n none)])
    (hi : i < n) : (cell? h ⟨bs.length, i⟩).isSome := by
  simp [cell?, hb, hi]

theorem hwc_spec {s : Cifar α} {t : Handle} {d : Desc} {p : Ptr} (w : Window s.heap t d p 3072) (hsh : d.shape = [3, 32, 32])
    (hst : d.strides = calculateStrides [3, 32, 32]) {others : List Nat} (ho : ∀ b ∈ others, b < s.heap.blocks.length) (hp : p.block ∈ others)
    (hs : Scratch s.heap s.image others) {v : Nat → α} (hv : ∀ j < 3072, cell? s.heap ⟨p.block, p.off + j⟩ = some (some (v j))) :
    ∃ s', hwc2chw t s = (.ok (), s') ∧ Scratch s'.heap s'.image others ∧
      (∀ (t : Handle) (d : Desc), s.heap.descs[t]? = some d → s'.heap.descs[t]? = some d) ∧ s.heap.blocks.length ≤ s'.heap.blocks.length ∧
      (∀ q, (cell? s.heap q).isSome → (cell? s'.heap q).isSome) ∧
      (∀ c k, c < 3 → k < 1024 → cell? s'.heap ⟨p.block, p.off + (c * 1024 + k)⟩ = some (some (v (3 * k + c)))) ∧
      ∀ q, (cell? s.heap q).isSome → Outside p 3072 q → q.block ∈ others ∨ NotScratch s.heap s.image q → cell? s'.heap q = cell? s.heap q := by
  obtain ⟨h, u⟩ := s
  simp only at *
  obtain ⟨du, hu, hd⟩ := hs
  by_cases heq : du.shape = [3, 32, 32]
  · obtain ⟨h3, r, wu, hr⟩ := hd heq
    obtain ⟨h1, h2, e1, l1, e2, l2, a, b⟩ := hwc_ready w wu (hsh.trans heq.symm) (hst.trans h3.symm) (fun e => hr (e ▸ hp)) hv
    have w1 := w.mono l1
    have wu1 := wu.mono l1
    refine ⟨⟨h2, u⟩, ?_, ⟨du, by rw [l2.descs, l1.descs]; exact hu, fun _ => ⟨h3, r, wu1.mono l2, hr⟩⟩,
      fun t d ht => by rw [l2.descs, l1.descs]; exact ht, by rw [l2.len, l1.len], fun q hq => by rw [l2.valid, l1.valid]; exact hq, a,
      fun q _ hq hn => b q hq (hn.elim (fun hm hh => hr (hh.1 ▸ hm)) fun hn => hn du r hu wu.data)⟩
    unfold hwc2chw
    rw [M.bind_ok (onTensors_ok (desc_some w.desc)), M.bind_ok (M.get_apply _), M.bind_ok (onTensors_ok (desc_some hu)),
      if_neg (by rw [heq, hsh]; simp)]
    show (M.get >>= _) _ = _
    rw [M.bind_ok (M.get_apply _), M.bind_ok (onTensors_ok e1), M.bind_ok (onTensors_ok (h' := h1) (a := r) (by
        simp [elemPtr, M.bind_apply, desc_some wu1.desc, wu1.data])),
      M.bind_ok (onTensors_ok (h' := h1) (a := p) (by simp [elemPtr, M.bind_apply, desc_some w1.desc, w1.data])), onTensors_ok e2]
  · obtain ⟨hn, dn, hnew, hds, hdsh, hdst, hdt, hdd, hbl⟩ := ofShape_new (by decide) (shape := [3, 32, 32])
      (fun k => by rcases k with _ | _ | _ | k <;> simp) h
    rw [show (([3, 32, 32] : Shape).prod).toNat = 3072 from rfl] at hdt hbl
    have hcell : ∀ q, (cell? h q).isSome → cell? hn q = cell? h q := fun q hq => by
      obtain ⟨c, hc⟩ := Option.isSome_iff_exists.1 hq
      unfold cell? at hc ⊢
      split at hc
      · rename_i cells hb
        rw [show hn.blocks[q.block]? = some (some cells) by
          rw [hbl, List.getElem?_append_left (lt_of_getElem? hb)]; exact hb]
      · cases hc
    have hdesc : ∀ (t : Handle) (d : Desc), h.descs[t]? = some d → hn.descs[t]? = some d := fun t d ht => by
      rw [hds, List.getElem?_append_left (lt_of_getElem? ht)]; exact ht
    have wn : Window hn t d p 3072 := ⟨hdesc t d w.desc, w.total, w.data, fun i hi => by rw [hcell _ (w.cells i hi)]; exact w.cells i hi⟩
    have wun : Window hn h.descs.length dn ⟨h.blocks.length, 0⟩ 3072 := ⟨by rw [hds, List.getElem?_concat_length], hdt, hdd, fun i hi => by
      rw [Nat.zero_add]
      exact new_cell hbl hi⟩
    have hlt : ∀ b ∈ others, h.blocks.length ≠ b := fun b hb e => absurd (ho b hb) (by omega)
    obtain ⟨h1, h2, e1, l1, e2, l2, a, b⟩ := hwc_ready wn wun (by rw [hsh, hdsh]) (by rw [hst, hdst]) (hlt _ hp)
      (fun j hj => by rw [hcell _ (w.cells j hj)]; exact hv j hj)
    have w1 := wn.mono l1
    have wu1 := wun.mono l1
    refine ⟨⟨h2, h.descs.length⟩, ?_, ⟨dn, by rw [l2.descs, l1.descs]; exact wun.desc, fun _ => ⟨hdst, _, wu1.mono l2, fun hm => hlt _ hm rfl⟩⟩,
      fun t d ht => by rw [l2.descs, l1.descs]; exact hdesc t d ht, by rw [l2.len, l1.len, hbl]; simp only [List.length_append]; omega,
      fun q hq => by rw [l2.valid, l1.valid, hcell q hq]; exact hq, a, fun q hv' hq _ => ?_⟩
    · unfold hwc2chw
      rw [M.bind_ok (onTensors_ok (desc_some w.desc)), M.bind_ok (M.get_apply _), M.bind_ok (onTensors_ok (desc_some hu)),
        if_pos (by rw [hsh]; exact heq), hsh]
      rw [M.bind_ok (onTensors_ok hnew)]
      rw [M.bind_ok (M.modify_apply _ _)]
      show (M.get >>= _) _ = _
      rw [M.bind_ok (M.get_apply _), M.bind_ok (onTensors_ok e1),
        M.bind_ok (onTensors_ok (h' := h1) (a := ⟨h.blocks.length, 0⟩) (by simp [elemPtr, M.bind_apply, desc_some wu1.desc, wu1.data])),
        M.bind_ok (onTensors_ok (h' := h1) (a := p) (by simp [elemPtr, M.bind_apply, desc_some w1.desc, w1.data])), onTensors_ok e2]
    · rw [b q hq fun hh => ?_, hcell q hv']
      have : (cell? h q).isSome = false := by
        unfold cell?
        rw [hh.1, List.getElem?_eq_none (le_refl _)]
        rfl
      rw [this] at hv'
      cases hv'

end DW.SamplesL
