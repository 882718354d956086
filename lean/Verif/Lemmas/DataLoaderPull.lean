import Verif.Lemmas.DataLoader
import Verif.Props.Tensor
/-! One call of `DataLoader::pull`. -/

set_option autoImplicit false

namespace DW.DLL

open DW DW.Spec DW.Tensor DW.DL DW.Props.TensorP

variable {α : Type}

/-- The strides of every tensor belong to its shape. -/
def Strided (h : Heap α) : Prop :=
  ∀ (t : Handle) (d : Desc), h.descs[t]? = some d → d.strides = calculateStrides d.shape

theorem Strided.of_descs {h h' : Heap α} (s : Strided h) (e : h'.descs = h.descs) : Strided h' := by
  intro t d hd; rw [e] at hd; exact s t d hd

theorem Strided.set {h : Heap α} (s : Strided h) {h' : Heap α} {t : Handle} {d : Desc}
    (e : h'.descs = h.descs.set t d) (hd : d.strides = calculateStrides d.shape) : Strided h' := by
  intro u d' hu
  rw [e, List.getElem?_set] at hu
  split at hu
  · split at hu
    · cases hu; exact hd
    · simp at hu
  · exact s u d' hu

theorem Strided.new {h : Heap α} (s : Strided h) : Strided { h with descs := h.descs ++ [{}] } := by
  intro t d hd
  simp only at hd
  by_cases ht : t < h.descs.length
  · rw [List.getElem?_append_left ht] at hd; exact s t d hd
  · rw [List.getElem?_append_right (Nat.not_lt.1 ht)] at hd
    cases hk : t - h.descs.length with
    | zero => rw [hk] at hd; simp at hd; subst hd; rfl
    | succ k => rw [hk] at hd; simp at hd

theorem storeCell_descs (p : Ptr) (c : Option α) (h : Heap α) : (storeCell p c h).2.descs = h.descs := by
  unfold storeCell
  split
  · rfl
  · rfl
  · split <;> rfl

theorem loadCell_heap (p : Ptr) (h : Heap α) : (loadCell p h).2 = h := by
  unfold loadCell
  split
  · rfl
  · rfl
  · split <;> rfl

theorem fillLoop_descs (p : Ptr) (vs : Nat → α) : ∀ (n i : Nat) (h : Heap α),
    (fillLoop p vs i n h).2.descs = h.descs
  | 0, _, _ => rfl
  | n + 1, i, h => by
    unfold fillLoop
    rw [M.bind_apply]
    have e := storeCell_descs ⟨p.block, p.off + i⟩ (some (vs i)) h
    generalize storeCell ⟨p.block, p.off + i⟩ (some (vs i)) h = r at e
    obtain ⟨o, h1⟩ := r
    cases o with
    | ok a => simp only; rw [fillLoop_descs p vs n (i + 1) h1]; exact e
    | throw _ => exact e
    | ub _ => exact e

theorem copyLoop_descs (s d : Ptr) : ∀ (n i : Nat) (h : Heap α),
    (copyLoop s d i n h).2.descs = h.descs
  | 0, _, _ => rfl
  | n + 1, i, h => by
    unfold copyLoop
    rw [M.bind_apply]
    have e := loadCell_heap ⟨s.block, s.off + i⟩ h
    generalize loadCell ⟨s.block, s.off + i⟩ h = r at e
    obtain ⟨o, h1⟩ := r
    simp only at e
    subst e
    cases o with
    | throw _ => rfl
    | ub _ => rfl
    | ok c =>
      simp only
      rw [M.bind_apply]
      have e := storeCell_descs ⟨d.block, d.off + i⟩ c h1
      generalize storeCell ⟨d.block, d.off + i⟩ c h1 = r at e
      obtain ⟨o, h2⟩ := r
      cases o with
      | ok a => simp only; rw [copyLoop_descs s d n (i + 1) h2]; exact e
      | throw _ => exact e
      | ub _ => exact e

theorem copyN_descs (s d : Option Ptr) (n : Nat) (h : Heap α) : (copyN s d n h).2.descs = h.descs := by
  cases n with
  | zero => rfl
  | succ n =>
    cases s with
    | none => rfl
    | some s =>
      cases d with
      | none => rfl
      | some d =>
        simp only [copyN]
        split
        · rfl
        · exact copyLoop_descs _ _ _ _ _

theorem reachable_strided {h : Heap α} (r : Reachable h) : Strided h := by
  induction r with
  | init => intro t d hd; simp at hd
  | @step h op r hl hu ih =>
    have alloc : ∀ (h : Heap α) (t : Handle) (d : Desc) (s : Shape), Strided h → h.descs[t]? = some d →
        (∀ u, (allocate t s h).1 ≠ .ub u) → Strided (allocate t s h).2 := by
      intro h t d s ih hd hu
      rcases init_unbounded t d h hd s with ⟨u, hu', rfl⟩ | hth | ⟨hs, hf⟩
      · exfalso
        generalize hr : Tensor.init t s h = r at hu'
        obtain ⟨o, h1⟩ := r
        simp only at hu'
        subst hu'
        simp only [allocate] at hu
        rw [M.bind_ub hr] at hu
        exact hu _ rfl
      · simp only [allocate]
        rw [M.bind_throw hth]
        exact ih
      · rw [allocate_ok hd hs hf]
        exact ih.set rfl rfl
    cases op with
    | new => exact ih.new
    | ofShape s =>
      have hd : ({ h with descs := h.descs ++ [({} : Desc)] } : Heap α).descs[h.descs.length]? = some {} := by simp
      simp only [step, M.bind_apply] at hu ⊢
      rw [ofShape_eq] at hu ⊢
      simp only [M.bind_apply] at hu ⊢
      have key := alloc _ h.descs.length {} s ih.new hd
      generalize allocate h.descs.length s { h with descs := h.descs ++ [({} : Desc)] } = r at *
      obtain ⟨o, h1⟩ := r
      cases o with
      | ok a => exact key (by simp)
      | throw e => exact key (by simp)
      | ub u => exact absurd rfl (hu u)
    | allocate t s => exact alloc h t _ s ih (List.getElem?_eq_getElem hl) hu
    | reshape t s =>
      have hd := List.getElem?_eq_getElem hl
      cases ha : accProd s with
      | ok n =>
        by_cases he : n = (h.descs[t]'hl).total
        · simp only [step]
          rw [reshape_ok hd (he ▸ ha)]
          exact ih.set rfl rfl
        · simp only [step]
          rw [reshape_throw hd ha he]
          exact ih
      | throw e => exact absurd ha accProd_ne_throw
      | ub u =>
        exfalso
        exact hu u (by simp [step, Tensor.reshape, M.bind_apply, desc, hl, ha])
    | copyTo t u =>
      refine ih.of_descs ?_
      have h1 := desc_some (List.getElem?_eq_getElem hl.1)
      have h2 := desc_some (List.getElem?_eq_getElem hl.2)
      simp only [step, Tensor.copyTo]
      rw [M.bind_ok h1, M.bind_ok h2]
      rw [M.bind_apply]
      cases hc : ((h.descs[t]'hl.1).shape == (h.descs[u]'hl.2).shape &&
          (h.descs[t]'hl.1).strides == (h.descs[u]'hl.2).strides) with
      | false => rfl
      | true =>
        rw [M.check_true_apply]
        simp only
        rw [M.bind_apply]
        cases hc : ((h.descs[u]'hl.2).total != 0) with
        | false => rfl
        | true => rw [M.check_true_apply]; exact copyN_descs _ _ _ _
    | fill t vs =>
      refine ih.of_descs ?_
      simp only [step, Tensor.fill]
      rw [M.bind_ok (desc_some (List.getElem?_eq_getElem hl))]
      generalize (h.descs[t]'hl).total = n
      generalize (h.descs[t]'hl).data = p
      cases n with
      | zero => rfl
      | succ n =>
        cases p with
        | none => rfl
        | some p => exact fillLoop_descs _ _ _ _ _
    | read t i =>
      obtain ⟨d, hd, hi⟩ := hl
      obtain ⟨p, c, hp, hc, -⟩ := elemPtr_ok (reachable_wf r) hd hi
      refine ih.of_descs ?_
      simp only [step, Tensor.read]
      cases c <;> simp [M.bind_apply, hp, loadCell_of_cell? hc]
    | write t i v =>
      obtain ⟨d, hd, hi⟩ := hl
      obtain ⟨p, c, hp, hc, -⟩ := elemPtr_ok (reachable_wf r) hd hi
      refine ih.of_descs ?_
      simp only [step, Tensor.write]
      rw [M.bind_ok hp]
      exact storeCell_descs _ _ _

/-! ### The pieces of `pull` -/

theorem allocate_elem {h : Heap α} (w : WF h) (t u : Handle) (d : Desc)
    (hd : h.descs[t]? = some d) (shape : Shape) (hut : u ≠ t) (j : Nat) :
    elem (allocHeap h t d shape) u j = elem h u j := by
  have hdu : (allocHeap h t d shape).descs[u]? = h.descs[u]? := by
    simp only [allocHeap]; exact List.getElem?_set_ne (Ne.symm hut)
  simp only [elem, hdu]
  cases hu : h.descs[u]? with
  | none => rfl
  | some du =>
    rcases w.owned u du hu with ⟨-, e0, -⟩ | ⟨b', cs', m2, d2, l2, -, -⟩
    · simp [e0]
    · simp only [d2, cell?, allocHeap]
      rw [freed_getElem?]
      · rw [List.getElem?_append_left (lt_of_getElem? l2)]
      · intro hm
        exact hut (w.inj u t du d b' hu hd m2 hm)

/-- `t` owns block `b` and has this shape. -/
def Has (h : Heap α) (t : Handle) (shape : Shape) (b : Nat) : Prop :=
  Ready h t shape b ∧ ∃ d, h.descs[t]? = some d ∧ d.memory = some b

theorem allocIfEmpty_spec {h : Heap α} (w : WF h) (st : Strided h) {t : Handle} {d : Desc}
    (hd : h.descs[t]? = some d) {s : Shape} (hs : Static s) (hf : CountFits s)
    (ok : d.total = 0 ∨ d.shape = s) :
    ∃ h' b, allocIfEmpty t s h = (.ok (), h') ∧ WF h' ∧ Strided h' ∧ Has h' t s b ∧
      (∀ u, u ≠ t → h'.descs[u]? = h.descs[u]? ∧ ∀ i, elem h' u i = elem h u i) := by
  by_cases h0 : d.total = 0
  · have w' := w.allocate hd s hs
    have hd' : (allocHeap h t d s).descs[t]? = some { initDesc d s with
        memory := some h.blocks.length, data := some ⟨h.blocks.length, 0⟩ } := by
      simp [allocHeap, lt_of_getElem? hd]
    refine ⟨allocHeap h t d s, h.blocks.length, ?_, w', st.set rfl rfl, ⟨⟨?_⟩, _, hd', rfl⟩, ?_⟩
    · simp only [allocIfEmpty]
      rw [M.bind_ok (desc_some hd), if_pos h0, allocate_ok hd hs hf]
    · refine ⟨_, List.replicate s.prod.toNat none, hd', rfl, rfl, rfl, ?_, ?_⟩
      · simp only [allocHeap]
        rw [freed_getElem?]
        · simp
        · intro hm; have := w.block_lt hd hm; omega
      · have := prod_nonneg hs
        simp; omega
    · intro u hu
      refine ⟨?_, fun i => allocate_elem w t u d hd s hu i⟩
      simp only [allocHeap]; exact List.getElem?_set_ne (Ne.symm hu)
  · rcases w.owned t d hd with ⟨-, -, hz⟩ | ⟨b, cells, m, p, l, len, tot⟩
    · exact absurd hz h0
    · have hsh : d.shape = s := by rcases ok with h | h; exacts [absurd h h0, h]
      refine ⟨h, b, ?_, w, st, ⟨⟨d, cells, hd, hsh, ?_, p, l, ?_⟩, d, hd, m⟩, fun _ _ => ⟨rfl, fun _ => rfl⟩⟩
      · simp only [allocIfEmpty]
        rw [M.bind_ok (desc_some hd), if_neg h0]; rfl
      · rw [st t d hd, hsh]
      · rw [← hsh, ← tot, len]

theorem Has.of_other {h h' : Heap α} (w' : WF h') {t : Handle} {s : Shape} {b : Nat} (r : Has h t s b)
    (e : h'.descs[t]? = h.descs[t]?) : Has h' t s b := by
  obtain ⟨⟨d, cells, h1, h2, h3, h4, h5, h6⟩, d', h7, h8⟩ := r
  rw [h1] at h7; cases h7
  have hd' : h'.descs[t]? = some d := e.trans h1
  refine ⟨⟨?_⟩, d, hd', h8⟩
  rcases w'.owned t d hd' with ⟨m, -, -⟩ | ⟨b', cells', m, p, l, len, tot⟩
  · rw [m] at h8; simp at h8
  · rw [m] at h8; cases h8
    exact ⟨d, cells', hd', h2, h3, p, l, by rw [len, tot, h2]⟩

theorem Has.sameLayout {h h' : Heap α} {t : Handle} {s : Shape} {b : Nat} (r : Has h t s b)
    (l : SameLayout h h') : Has h' t s b :=
  ⟨r.1.sameLayout l, by obtain ⟨d, h1, h2⟩ := r.2; exact ⟨d, by rw [l.descs]; exact h1, h2⟩⟩

theorem stride0_eq {h : Heap α} {t : Handle} {n : Int} {s : Shape} {b : Nat} (r : Ready h t (n :: s) b) :
    stride0 t h = (.ok s.prod.toNat, h) := by
  obtain ⟨d, cells, h1, h2, h3, h4, h5, h6⟩ := r.ex
  have hk : 0 < (calculateStrides (n :: s)).length := by simp
  have : (M.lift (Out.idx d.strides 0) : M (Heap α) Int) h = (.ok s.prod, h) := by
    rw [M.lift_apply, h3, Out.idx_of_lt hk, calculateStrides_getElem _ _ (by simp)]; simp
  unfold stride0
  rw [M.bind_ok (desc_some h1), M.bind_ok this]; rfl

/-! ### One call -/

/-- A loader whose batches can be stored: the sizes are non-negative and fit an `int`. -/
structure LoaderOk (ld : Loader α) : Prop where
  batch : 0 ≤ ld.batch
  sx : Static ld.dataset.shapeX
  sy : Static ld.dataset.shapeY
  fx : CountFits ld.dataset.shapeX
  fy : CountFits ld.dataset.shapeY
  bx : CountFits (ld.batch :: ld.dataset.shapeX)
  by' : CountFits (ld.batch :: ld.dataset.shapeY)
  fits : ld.dataset.size + ld.batch ≤ 2147483647

/-- A tensor `pull` accepts: empty, or already of the batch's shape. -/
def Accepts (h : Heap α) (t : Handle) (shape : Shape) : Prop :=
  ∃ d, h.descs[t]? = some d ∧ (d.total = 0 ∨ d.shape = shape)

/-- The state between calls of `pull` with the same two tensors. -/
structure Inv (ld : Loader α) (X y : Handle) (s : DL α) : Prop where
  wf : WF s.heap
  strided : Strided s.heap
  ne : X ≠ y
  x : Accepts s.heap X (ld.batch :: ld.dataset.shapeX)
  y : Accepts s.heap y (ld.batch :: ld.dataset.shapeY)
  pos0 : 0 ≤ s.pos
  pos1 : s.pos ≤ ld.dataset.size

/-- The tensor holds the samples with these numbers, one after the other. -/
def IsBatch (h : Heap α) (t : Handle) (batch : Int) (sample : Shape) (f : Int → Nat → α) (idxs : List Int) : Prop :=
  (∃ d, h.descs[t]? = some d ∧ d.shape = batch :: sample) ∧ (idxs.length : Int) = batch ∧
  ∀ i, ∀ hi : i < idxs.length, ∀ j : Nat, (j : Int) < sample.prod →
    elem h t (i * sample.prod.toNat + j) = some (some (f idxs[i] j))

/-- What a call of `pull` does. -/
theorem pull_spec {ld : Loader α} (lo : LoaderOk ld) {X y : Handle} {s : DL α} (inv : Inv ld X y s)
    (rand : List Int)
    (hr : ld.shuffle = true → s.pos + ld.batch ≤ ld.dataset.size →
      (rand.length : Int) = ld.batch ∧ ∀ v ∈ rand, 0 ≤ v ∧ v < ld.dataset.size) :
    ∃ s', pull ld rand X y s = (.ok (decide (s.pos + ld.batch ≤ ld.dataset.size)), s') ∧ Inv ld X y s' ∧
      s'.pos = (if s.pos + ld.batch ≤ ld.dataset.size then s.pos + ld.batch else 0) ∧
      (s.pos + ld.batch ≤ ld.dataset.size →
        let idxs := if ld.shuffle then rand else (List.range ld.batch.toNat).map fun i : Nat => s.pos + i
        IsBatch s'.heap X ld.batch ld.dataset.shapeX ld.dataset.x idxs ∧
        IsBatch s'.heap y ld.batch ld.dataset.shapeY ld.dataset.y idxs) ∧
      (∀ u, u ≠ X → u ≠ y → s'.heap.descs[u]? = s.heap.descs[u]? ∧ ∀ i, elem s'.heap u i = elem s.heap u i) := by
  obtain ⟨b, hb⟩ := Int.eq_ofNat_of_zero_le lo.batch
  have hsX : Static (ld.batch :: ld.dataset.shapeX) := static_cons.2 ⟨lo.batch, lo.sx⟩
  have hsY : Static (ld.batch :: ld.dataset.shapeY) := static_cons.2 ⟨lo.batch, lo.sy⟩
  obtain ⟨dX, ex, okx⟩ := inv.x
  obtain ⟨dY, ey, oky⟩ := inv.y
  obtain ⟨h1, bx, a1, w1, st1, hx1, fr1⟩ := allocIfEmpty_spec inv.wf inv.strided ex hsX lo.bx okx
  have ey1 := (fr1 y inv.ne.symm).1.trans ey
  obtain ⟨h2, by', a2, w2, st2, hy2, fr2⟩ := allocIfEmpty_spec w1 st1 ey1 hsY lo.by' oky
  have hx2 : Has h2 X _ bx := hx1.of_other w2 (fr2 X inv.ne).1
  have fr12 : ∀ u, u ≠ X → u ≠ y → h2.descs[u]? = s.heap.descs[u]? ∧ ∀ i, elem h2 u i = elem s.heap u i := by
    intro u h3 h4
    exact ⟨(fr2 u h4).1.trans (fr1 u h3).1, fun i => ((fr2 u h4).2 i).trans ((fr1 u h3).2 i)⟩
  obtain ⟨d1, c1, x1, x2, x3, x4, x5, x6⟩ := hx2.1.ex
  obtain ⟨d2, c2, y1, y2, y3, y4, y5, y6⟩ := hy2.1.ex
  have hbne : bx ≠ by' := by
    rintro rfl
    obtain ⟨e1, e2, e3⟩ := hx2.2
    obtain ⟨f1, f2, f3⟩ := hy2.2
    exact inv.ne (w2.inj X y e1 f1 bx e2 f2 e3 f3)
  have fit : fitsInt (s.pos + ld.batch) = true := by
    have := lo.fits; have := inv.pos0; have := inv.pos1; have := lo.batch
    simp only [fitsInt, Bool.and_eq_true, decide_eq_true_eq]; omega
  have tos : toSizeT (s.pos + ld.batch) = (s.pos + ld.batch).toNat := by
    have := lo.fits; have := inv.pos0; have := inv.pos1; have := lo.batch
    unfold toSizeT
    rw [Int.emod_eq_of_lt (by omega) (by omega)]
  have hcond : ld.dataset.size < toSizeT (s.pos + ld.batch) ↔ ¬ (s.pos + ld.batch ≤ ld.dataset.size) := by
    rw [tos]; have := inv.pos0; have := lo.batch; omega
  have k1 : (d1.shape == makeShape ld.batch ld.dataset.shapeX) = true := by rw [x2]; simp [makeShape]
  have k2 : (d2.shape == makeShape ld.batch ld.dataset.shapeY) = true := by rw [y2]; simp [makeShape]
  have run : pull ld rand X y s = (do
      if ld.dataset.size < toSizeT (s.pos + ld.batch) then do
        M.modify fun s => { s with pos := 0 }
        pure false
      else do
        let sx ← onHeap (stride0 X)
        let sy ← onHeap (stride0 y)
        let indices ← M.lift (pickIndices ld rand s.pos)
        onHeap (fillBatch ld.dataset X y sx sy indices 0 ld.batch.toNat)
        M.modify fun s => { s with pos := s.pos + ld.batch }
        pure true : M (DL α) Bool) ⟨h2, s.pos⟩ := by
    unfold pull
    simp only [makeShape] at k1 k2 ⊢
    rw [M.bind_ok (onHeap_eq a1), M.bind_ok (onHeap_eq (s := ⟨h1, s.pos⟩) a2),
      M.bind_ok (onHeap_eq (s := ⟨h2, s.pos⟩) (desc_some x1)), k1, M.bind_ok (M.check_true_apply _),
      M.bind_ok (onHeap_eq (s := ⟨h2, s.pos⟩) (desc_some y1)), k2, M.bind_ok (M.check_true_apply _),
      M.bind_ok (M.get_apply _)]
    simp only [fit, if_true]
  by_cases hc : s.pos + ld.batch ≤ ld.dataset.size
  · set idxs := if ld.shuffle then rand else (List.range ld.batch.toNat).map fun i : Nat => s.pos + i with hidxs
    have hi1 : idxs.length = b := by
      rw [hidxs]; split
      · rename_i hsh; have := (hr hsh hc).1; omega
      · simp [hb]
    have hi2 : ∀ v ∈ idxs, 0 ≤ v ∧ v < ld.dataset.size := by
      rw [hidxs]; split
      · rename_i hsh; exact (hr hsh hc).2
      · intro v hv
        simp only [List.mem_map, List.mem_range] at hv
        obtain ⟨i, hi, rfl⟩ := hv
        have := inv.pos0
        omega
    have px := prod_nonneg lo.sx
    have py := prod_nonneg lo.sy
    rw [hb] at hx2 hy2
    obtain ⟨h3, e3, l3, c1, c2, fr3⟩ := fillBatch_spec (ds := ld.dataset) hbne lo.sx lo.sy lo.fx lo.fy
      (sx := ld.dataset.shapeX.prod.toNat) (sy := ld.dataset.shapeY.prod.toNat) (by omega) (by omega)
      hi1 hi2 b 0 (by omega) hx2.1 hy2.1
    have hxd : h3.descs[X]? = some d1 := by rw [l3.descs]; exact x1
    have hyd : h3.descs[y]? = some d2 := by rw [l3.descs]; exact y1
    refine ⟨⟨h3, s.pos + ld.batch⟩, ?_, ?_, by rw [if_pos hc], fun _ => ⟨⟨⟨d1, hxd, x2⟩, by omega, ?_⟩,
      ⟨⟨d2, hyd, y2⟩, by omega, ?_⟩⟩, ?_⟩
    · have hidx : (M.lift (pickIndices ld rand s.pos) : M (DL α) (List Int))
          ⟨h2, s.pos⟩ = (.ok idxs, ⟨h2, s.pos⟩) := by
        rw [hidxs, M.lift_apply, pickIndices]
        split
        · rfl
        · rw [seqIndices, if_neg (by have := lo.batch; omega)]
      rw [run, if_neg (by rw [hcond]; simpa using hc),
        M.bind_ok (onHeap_eq (s := ⟨h2, s.pos⟩) (stride0_eq hx2.1)),
        M.bind_ok (onHeap_eq (s := ⟨h2, s.pos⟩) (stride0_eq hy2.1)), M.bind_ok hidx,
        M.bind_ok (onHeap_eq (s := ⟨h2, s.pos⟩) (by rw [hb]; exact e3))]
      rw [decide_eq_true hc]
      rfl
    · exact ⟨w2.sameLayout l3, st2.of_descs l3.descs, inv.ne, ⟨d1, hxd, .inr x2⟩, ⟨d2, hyd, .inr y2⟩,
        by have := inv.pos0; have := lo.batch; simp only; omega, hc⟩
    · intro i hi j hj
      simp only [elem, hxd, x4, Nat.zero_add]
      exact c1 i (by omega) hi j (by omega)
    · intro i hi j hj
      simp only [elem, hyd, y4, Nat.zero_add]
      exact c2 i (by omega) hi j (by omega)
    · intro u hux huy
      refine ⟨by rw [← (fr12 u hux huy).1]; simp only [l3.descs], fun i => ?_⟩
      rw [← (fr12 u hux huy).2 i]
      simp only [elem, l3.descs]
      cases hu : h2.descs[u]? with
      | none => rfl
      | some du =>
        rcases w2.owned u du hu with ⟨-, e0, -⟩ | ⟨b', cs', m2, d2', -, -, -⟩
        · simp [e0]
        · simp only [d2']
          apply fr3
          · intro hh
            obtain ⟨e1, e2, e3⟩ := hx2.2
            simp only at hh
            exact absurd (w2.inj u X du e1 b' hu e2 m2 (hh ▸ e3)) hux
          · intro hh
            obtain ⟨e1, e2, e3⟩ := hy2.2
            simp only at hh
            exact absurd (w2.inj u y du e1 b' hu e2 m2 (hh ▸ e3)) huy
  · refine ⟨⟨h2, 0⟩, ?_, ?_, by rw [if_neg hc], fun h => absurd h hc, fr12⟩
    · rw [run, if_pos (hcond.2 hc), decide_eq_false hc]; rfl
    · exact ⟨w2, st2, inv.ne, ⟨d1, x1, .inr x2⟩, ⟨d2, y1, .inr y2⟩, by simp, by simp⟩

end DW.DLL
