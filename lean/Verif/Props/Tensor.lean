import Verif.Lemmas.Tensor
import Verif.Model.Initializers
/-!
# Properties C01–C07: tensors

`elem h t i` is the i-th element of tensor `t` as seen through `t.data()[i]`.
-/

set_option autoImplicit false

namespace DW.Props.TensorP

open DW DW.Tensor DW.Spec

variable {α : Type}

/-- What `t.data()[i]` denotes: `none` if that is not a valid access, `some none` if the element
was never written. -/
def elem (h : Heap α) (t : Handle) (i : Nat) : Option (Option α) :=
  match h.descs[t]? with
  | some d => match d.data with
    | some p => cell? h ⟨p.block, p.off + i⟩
    | none => none
  | none => none

/-- All `total()` elements of `t` may be accessed. -/
def Usable (h : Heap α) (t : Handle) : Prop :=
  ∃ d, h.descs[t]? = some d ∧ ∀ i < d.total, (elem h t i).isSome

/-! ## C01 -/

/-- **C01.** `Tensor(shape)` reports the shape, the product of the dimensions as `total()`, strides
equal to the products of the trailing dimensions, has `total()` accessible elements, and row-major
offsets are a bijection between the valid multi-indices and `[0, total())`. -/
theorem tensor_layout (h : Heap α) (shape : Shape) (hs : Static shape) (hf : CountFits shape) :
    ∃ t h' d, ofShape shape h = (.ok t, h') ∧ h'.descs[t]? = some d ∧
      d.shape = shape ∧ (d.total : Int) = count shape ∧
      d.strides.length = shape.length ∧
      (∀ k (hk : k < d.strides.length), d.strides[k] = (shape.drop (k + 1)).prod) ∧
      Usable h' t ∧
      Set.BijOn (offset d.strides) {idx | InRange shape idx} {n | 0 ≤ n ∧ n < (d.total : Int)} := by
  have e : (h.descs ++ [({} : Desc)])[h.descs.length]? = some {} := by simp
  have ha := allocate_ok (h := { h with descs := h.descs ++ [({} : Desc)] }) e hs hf
  have hd : (allocHeap { h with descs := h.descs ++ [({} : Desc)] } h.descs.length {} shape).descs[h.descs.length]?
      = some { initDesc {} shape with memory := some h.blocks.length, data := some ⟨h.blocks.length, 0⟩ } := by
    simp [allocHeap]
  have hp := prod_nonneg hs
  refine ⟨h.descs.length, _, _, ?_, hd, rfl, ?_, by simp [initDesc], ?_, ⟨_, hd, ?_⟩, ?_⟩
  · simp only [ofShape]
    rw [M.bind_ok (new_apply h),
      M.bind_ok ha]
    rfl
  · simp only [initDesc, count]; omega
  · intro k hk
    have hk' : k < shape.length := by simpa [initDesc] using hk
    simpa [initDesc] using calculateStrides_getElem shape k hk'
  · intro i hi
    simp only [initDesc] at hi
    simp [elem, allocHeap, cell?, freed, initDesc, hi]
  · simp only [initDesc]
    rw [Int.toNat_of_nonneg hp]
    refine ⟨fun idx hidx => offset_bounds hidx, fun a ha b hb hab => offset_inj ha hb hab, ?_⟩
    rintro n ⟨h0, h1⟩
    obtain ⟨idx, hi, he⟩ := offset_surj hs h0 h1
    exact ⟨idx, hi, he⟩

/-- Instance of C01: a 2x3x4 tensor has 24 elements, strides 12,4,1, and (1,2,3) is element 23. -/
example : Static [2, 3, 4] ∧ CountFits [2, 3, 4] ∧ count [2, 3, 4] = 24 ∧
    calculateStrides [2, 3, 4] = [12, 4, 1] ∧ InRange [2, 3, 4] [1, 2, 3] ∧
    offset [12, 4, 1] [1, 2, 3] = 23 := by
  refine ⟨by decide, ?_, by decide, by decide, ?_, by decide⟩
  · intro k
    match k with
    | 0 => decide
    | 1 => decide
    | 2 => decide
    | k + 3 => simp
  · repeat' constructor

/-! ## C02 -/

/-- **C02.** `allocate` throws exactly for shapes with a negative dimension. -/
theorem allocate_throws_iff (h : Heap α) (t : Handle) (ht : t < h.descs.length) (shape : Shape)
    (hf : Static shape → CountFits shape) :
    (∃ e, (allocate t shape h).1 = .throw e) ↔ ∃ d ∈ shape, d < 0 := by
  by_cases hs : Static shape
  · rw [allocate_ok (List.getElem?_eq_getElem ht) hs (hf hs)]
    simp only [reduceCtorEq, exists_false, false_iff, not_exists, not_and, not_lt]
    exact hs
  · rw [allocate_throw hs]
    simpa [Static] using hs

/-- **C02.** When `allocate` throws, nothing at all has changed (strong exception guarantee). -/
theorem allocate_throw_unchanged (h : Heap α) (t : Handle) (shape : Shape) (e : Exn)
    (he : (allocate t shape h).1 = .throw e) : (allocate t shape h).2 = h := by
  by_cases hs : Static shape
  · exfalso
    simp only [allocate, init, M.bind_apply, hasNegative_false.2 hs, Bool.not_false,
      M.check_true_apply, desc] at he
    cases hd : h.descs[t]? with
    | none => simp only [hd] at he; simp at he
    | some d =>
      have ht := lt_of_getElem? hd
      simp only [hd, setDesc, M.modify_apply, M.lift_apply] at he
      cases ha : accProd shape with
      | ok n => simp [ha, ht, newBlock, free_apply] at he
      | throw e' => exact accProd_ne_throw ha
      | ub u => simp [ha] at he
  · rw [allocate_throw hs]

/-- **C02.** The constructor throws exactly for shapes with a negative dimension, and then no
existing tensor or buffer has changed (the half-built object is the only new descriptor). -/
theorem ofShape_throws_iff (h : Heap α) (shape : Shape) (hf : Static shape → CountFits shape) :
    ((∃ e, (ofShape shape h).1 = .throw e) ↔ ∃ d ∈ shape, d < 0) ∧
    (∀ e, (ofShape shape h).1 = .throw e →
      (ofShape shape h).2.blocks = h.blocks ∧
      ∀ t < h.descs.length, (ofShape shape h).2.descs[t]? = h.descs[t]?) := by
  have e : (h.descs ++ [({} : Desc)])[h.descs.length]? = some {} := by simp
  by_cases hs : Static shape
  · have ha := allocate_ok (h := { h with descs := h.descs ++ [({} : Desc)] }) e hs (hf hs)
    have : (ofShape shape h).1 = .ok h.descs.length := by
      simp only [ofShape]
      rw [M.bind_ok (new_apply h),
        M.bind_ok ha]
      rfl
    rw [this]
    simp only [reduceCtorEq, exists_false, false_iff, not_exists, not_and, not_lt, false_implies,
      implies_true, and_true]
    exact hs
  · have : ofShape shape h = (.throw .dw, { h with descs := h.descs ++ [({} : Desc)] }) := by
      simp only [ofShape]
      rw [M.bind_ok (new_apply h),
        M.bind_throw (allocate_throw hs)]
    rw [this]
    refine ⟨by simpa [Static] using hs, fun _ _ => ⟨rfl, fun t ht => ?_⟩⟩
    exact List.getElem?_append_left ht

/-- The dynamic batch shape `{-1, 10}` is refused, `{2, 0, 3}` is accepted. -/
example : (∃ d ∈ ([-1, 10] : Shape), d < 0) ∧ ¬ ∃ d ∈ ([2, 0, 3] : Shape), d < 0 := by decide

/-! ## C03 -/

/-- **C03.** `copyTo` throws exactly when the layouts differ or the destination is empty, and then
changes nothing. -/
theorem copyTo_throws_iff (h : Heap α) (t u : Handle) (a b : Desc) (ha : h.descs[t]? = some a)
    (hb : h.descs[u]? = some b) :
    ((∃ e, (copyTo t u h).1 = .throw e) ↔ (a.shape ≠ b.shape ∨ a.strides ≠ b.strides ∨ b.total = 0)) ∧
    (∀ e, (copyTo t u h).1 = .throw e → (copyTo t u h).2 = h) := by
  have nothrow : ∀ (n i : Nat) (s d : Ptr) (h : Heap α) e, (copyLoop s d i n h).1 ≠ .throw e := by
    intro n
    induction n with
    | zero => intro i s d h e; simp [copyLoop]
    | succ n ih =>
      intro i s d h e
      simp only [copyLoop, M.bind_apply]
      generalize hl : loadCell ⟨s.block, s.off + i⟩ h = r
      obtain ⟨o, h1⟩ := r
      cases o with
      | ok c =>
        simp only
        generalize hst : storeCell ⟨d.block, d.off + i⟩ c h1 = r2
        obtain ⟨o2, h2⟩ := r2
        cases o2 with
        | ok x => simp only; exact ih _ _ _ _ _
        | throw e' =>
          exfalso
          simp only [storeCell] at hst
          split at hst <;> [simp at hst; simp at hst; (split at hst <;> simp at hst)]
        | ub u => simp
      | throw e' =>
        exfalso
        simp only [loadCell] at hl
        split at hl <;> [simp at hl; simp at hl; (split at hl <;> simp at hl)]
      | ub u => simp
  have nothrow' : ∀ (s d : Option Ptr) (n : Nat) e, (copyN s d n h).1 ≠ .throw e := by
    intro s d n e
    unfold copyN
    split
    · simp
    · split
      · simp
      · exact nothrow _ _ _ _ _ _
    · simp
  have hda := desc_some ha
  have hdb := desc_some hb
  unfold copyTo
  rw [M.bind_ok hda, M.bind_ok hdb]
  by_cases h1 : a.shape = b.shape ∧ a.strides = b.strides
  · have c1 : (a.shape == b.shape && a.strides == b.strides) = true := by simp [h1.1, h1.2]
    rw [c1, M.bind_ok (M.check_true_apply h)]
    by_cases h2 : b.total = 0
    · have c2 : (b.total != 0) = false := by simp [h2]
      rw [c2, M.bind_throw (M.check_false_apply h)]
      simp [h2]
    · have c2 : (b.total != 0) = true := by simp [h2]
      rw [c2, M.bind_ok (M.check_true_apply h)]
      refine ⟨⟨fun ⟨e, he⟩ => absurd he (nothrow' _ _ _ _), ?_⟩, fun e he => absurd he (nothrow' _ _ _ _)⟩
      rintro (hh | hh | hh)
      · exact absurd h1.1 hh
      · exact absurd h1.2 hh
      · exact absurd hh h2
  · have c1 : (a.shape == b.shape && a.strides == b.strides) = false := by
      simpa [← Bool.not_eq_true] using h1
    rw [c1, M.bind_throw (M.check_false_apply h)]
    refine ⟨⟨fun _ => ?_, fun _ => ⟨_, rfl⟩⟩, fun _ _ => rfl⟩
    by_cases hsh : a.shape = b.shape
    · exact Or.inr (Or.inl fun h' => h1 ⟨hsh, h'⟩)
    · exact Or.inl hsh

/-- The storage ranges of two tensors do not overlap partially (they are disjoint or identical). -/
def NoPartialOverlap (a b : Desc) : Prop :=
  ∀ p q, a.data = some p → b.data = some q →
    p.block ≠ q.block ∨ p.off = q.off ∨ p.off + a.total ≤ q.off ∨ q.off + a.total ≤ p.off

/-- `q` is one of the cells of the tensor with descriptor `b`. -/
def InBuffer (b : Desc) (q : Ptr) : Prop :=
  ∃ p, b.data = some p ∧ q.block = p.block ∧ p.off ≤ q.off ∧ q.off < p.off + b.total

/-- **C03.** Otherwise `copyTo` succeeds: every element of the source is found in the destination,
and no memory cell outside the destination's buffer, and no descriptor, changes. -/
theorem copyTo_copies (h : Heap α) (t u : Handle) (a b : Desc) (ha : h.descs[t]? = some a)
    (hb : h.descs[u]? = some b) (hua : Usable h t) (hub : Usable h u)
    (hshape : a.shape = b.shape) (hstr : a.strides = b.strides) (htot : a.total = b.total)
    (hne : b.total ≠ 0) (hov : NoPartialOverlap a b) :
    ∃ h', copyTo t u h = (.ok (), h') ∧ h'.descs = h.descs ∧
      (∀ i < b.total, elem h' u i = elem h t i) ∧
      (∀ q, ¬ InBuffer b q → cell? h' q = cell? h q) := by
  obtain ⟨a', ha', hua⟩ := hua
  obtain ⟨b', hb', hub⟩ := hub
  rw [ha] at ha'; cases ha'
  rw [hb] at hb'; cases hb'
  have e1 : ∀ i, elem h t i = (match a.data with
      | some p => cell? h ⟨p.block, p.off + i⟩ | none => none) := by intro i; simp [elem, ha]
  have e2 : ∀ i, elem h u i = (match b.data with
      | some p => cell? h ⟨p.block, p.off + i⟩ | none => none) := by intro i; simp [elem, hb]
  have hpos : 0 < b.total := Nat.pos_of_ne_zero hne
  cases had : a.data with
  | none => have := hua 0 (by omega); rw [e1, had] at this; simp at this
  | some p =>
    cases hbd : b.data with
    | none => have := hub 0 hpos; rw [e2, hbd] at this; simp at this
    | some q =>
      have hno := hov p q had hbd
      obtain ⟨h', hc, hl, hcp, hfr⟩ := copyLoop_spec p q a.total 0 h
        (by intro j _ hj; have := hua j (by omega); rw [e1, had] at this; exact this)
        (by intro j _ hj; have := hub j (by omega); rw [e2, hbd] at this; exact this)
        (by omega)
      refine ⟨h', ?_, hl.descs, ?_, ?_⟩
      · have c1 : (a.shape == b.shape && a.strides == b.strides) = true := by simp [hshape, hstr]
        have c2 : (b.total != 0) = true := by simp [hne]
        unfold copyTo
        rw [M.bind_ok (desc_some ha), M.bind_ok (desc_some hb), c1,
          M.bind_ok (M.check_true_apply h), c2, M.bind_ok (M.check_true_apply h), had, hbd]
        obtain ⟨n, hn⟩ : ∃ n, a.total = n + 1 := ⟨a.total - 1, by omega⟩
        rw [hn] at hc ⊢
        have hov' : overlaps p q (n + 1) = false := by
          simp only [overlaps, Bool.and_eq_false_iff, beq_eq_false_iff_ne, bne_eq_false_iff_eq,
            decide_eq_false_iff_not]
          omega
        simp only [copyN, hov', Bool.false_eq_true, if_false]
        exact hc
      · intro i hi
        have := hcp i (by omega) (by omega)
        simpa [elem, hl.descs, ha, hb, had, hbd] using this
      · intro x hx
        apply hfr
        intro hh
        exact hx ⟨q, hbd, hh.1, by omega, by omega⟩

/-- Equal layouts of allocated tensors imply equal element counts, so `htot` above only excludes an
unallocated rank-0 source (shape `{}`, 0 elements) copied to an allocated rank-0 tensor
(shape `{}`, 1 element): then the call succeeds and copies nothing. -/
theorem copyTo_unallocated_source (h : Heap α) (t u : Handle) (b : Desc)
    (ha : h.descs[t]? = some {}) (hb : h.descs[u]? = some b) (hs : b.shape = []) (hst : b.strides = [])
    (hne : b.total ≠ 0) : copyTo t u h = (.ok (), h) := by
  have c2 : (b.total != 0) = true := by simp [hne]
  unfold copyTo
  rw [M.bind_ok (desc_some ha), M.bind_ok (desc_some hb)]
  simp [M.bind_apply, hs, hst, c2, copyN]

/-! ## C04 -/

/-- **C04 (proved part).** For every tensor and every target shape whose element count can be
computed, `reshape` throws iff the counts differ, changing nothing; otherwise shape and strides
describe the new dense layout and the data pointer, the total and all memory are unchanged.
Missing from C04: after success all dimensions are non-negative — false, see `reshape_refuted`. -/
theorem reshape_partial (h : Heap α) (t : Handle) (d : Desc) (hd : h.descs[t]? = some d)
    (shape : Shape) (n : Int) (hn : accProd shape = .ok n) :
    n = count shape ∧
    ((∃ e, (reshape t shape h).1 = .throw e) ↔ count shape ≠ d.total) ∧
    (∀ e, (reshape t shape h).1 = .throw e → (reshape t shape h).2 = h) ∧
    (count shape = d.total → ∃ h' d', reshape t shape h = (.ok (), h') ∧ h'.descs[t]? = some d' ∧
      d'.shape = shape ∧ d'.total = d.total ∧ d'.data = d.data ∧ d'.memory = d.memory ∧
      (∀ k (hk : k < d'.strides.length), d'.strides[k] = (shape.drop (k + 1)).prod) ∧
      d'.strides.length = shape.length ∧
      h'.blocks = h.blocks ∧ (∀ u, u ≠ t → h'.descs[u]? = h.descs[u]?) ∧
      (∀ u i, elem h' u i = elem h u i)) := by
  have hcount : n = count shape := by simpa [count] using accProd_ok hn
  refine ⟨hcount, ?_⟩
  by_cases he : n = d.total
  · have hok := reshape_ok hd (he ▸ hn)
    have ht := lt_of_getElem? hd
    refine ⟨?_, ?_, ?_⟩
    · rw [hok]; simp [← hcount, he]
    · rw [hok]; simp
    · intro _
      refine ⟨_, { d with shape := shape, strides := calculateStrides shape }, hok, by simp [ht],
        rfl, rfl, rfl, rfl, ?_, by simp, rfl, ?_, ?_⟩
      · intro k hk
        exact calculateStrides_getElem shape k (by simpa using hk)
      · intro u hu
        simp [Ne.symm hu]
      · intro u i
        by_cases hu : u = t
        · subst hu
          simp only [elem, hd]
          rw [List.getElem?_set_self ht]
          rfl
        · simp only [elem]
          rw [List.getElem?_set_ne (Ne.symm hu)]
          rfl
  · have hth := reshape_throw hd hn he
    refine ⟨?_, ?_, ?_⟩
    · rw [hth]; simp [← hcount, he]
    · rw [hth]; simp
    · intro h'; exact absurd (hcount.trans h') he

/-- The full C04 claim about the shape after a successful reshape. -/
def ReshapeKeepsDimensionsValid : Prop :=
  ∀ (h : Heap Nat) (t : Handle) (shape : Shape) (h' : Heap Nat) (d : Desc),
    reshape t shape h = (.ok (), h') → h'.descs[t]? = some d → Static d.shape

/-- **C04 is violated by the code:** a 6-element tensor can be reshaped to `{-2,-3}`
(src/runtime/tensor.cpp:97-103 only compares products). -/
theorem reshape_refuted : ¬ ReshapeKeepsDimensionsValid := by
  intro hall
  let d0 : Desc := { strides := [3, 1], shape := [2, 3], memory := some 0, data := some ⟨0, 0⟩, total := 6 }
  let h : Heap Nat := ⟨[d0], [some (List.replicate 6 none)]⟩
  have := hall h 0 [-2, -3] ⟨[{ d0 with shape := [-2, -3], strides := [-3, 1] }], h.blocks⟩
    { d0 with shape := [-2, -3], strides := [-3, 1] } (by decide) (by decide)
  exact absurd (this (-2) (by simp)) (by decide)

/-! ## C05 -/

/-- A call of the tensor API that passes no raw pointer. -/
inductive Op (α : Type)
  | new
  | ofShape (s : Shape)
  | allocate (t : Handle) (s : Shape)
  | reshape (t : Handle) (s : Shape)
  | copyTo (t u : Handle)
  | fill (t : Handle) (vs : Nat → α)
  | read (t : Handle) (i : Nat)
  | write (t : Handle) (i : Nat) (v : α)

/-- Execute a call. -/
def step : Op α → M (Heap α) Unit
  | .new => do let _ ← Tensor.new
  | .ofShape s => do let _ ← Tensor.ofShape s
  | .allocate t s => Tensor.allocate t s
  | .reshape t s => Tensor.reshape t s
  | .copyTo t u => Tensor.copyTo t u
  | .fill t vs => Tensor.fill t vs
  | .read t i => do let _ ← Tensor.read t i
  | .write t i v => Tensor.write t i v

/-- The caller uses tensors that exist and indices below `total()`. -/
def Legal (h : Heap α) : Op α → Prop
  | .new | .ofShape _ => True
  | .allocate t _ | .reshape t _ | .fill t _ => t < h.descs.length
  | .copyTo t u => t < h.descs.length ∧ u < h.descs.length
  | .read t i | .write t i _ => ∃ d, h.descs[t]? = some d ∧ i < d.total

/-- Heaps reachable by legal calls; the program goes on after an exception. -/
inductive Reachable : Heap α → Prop
  | init : Reachable ⟨[], []⟩
  | step {h : Heap α} (op : Op α) : Reachable h → Legal h op →
      (∀ u, (step op h).1 ≠ .ub u) → Reachable (step op h).2

theorem init_unbounded (t : Handle) (d : Desc) (h : Heap α) (hd : h.descs[t]? = some d) (s : Shape) :
    (∃ u, (Tensor.init t s h).1 = .ub u ∧ u = .overflow) ∨ Tensor.init t s h = (.throw .dw, h) ∨
      (Static s ∧ CountFits s) := by
  by_cases hs : Static s
  · cases ha : accProd s with
    | ok n =>
      right; right
      exact ⟨hs, fun k => by simpa using accProd_static_iff hs (by decide) (by decide) ha k⟩
    | throw e => exact absurd ha accProd_ne_throw
    | ub u =>
      left
      refine ⟨u, ?_, accProd_ub ha⟩
      simp [Tensor.init, M.bind_apply, hasNegative_false.2 hs, desc, hd, setDesc, ha]
  · right; left; exact init_throw hs

theorem allocate_cases {h : Heap α} (w : WF h) {t : Handle} {d : Desc} (hd : h.descs[t]? = some d)
    (s : Shape) :
    (allocate t s h).1 = .ub .overflow ∨
      ((∀ u, (allocate t s h).1 ≠ .ub u) ∧ WF (allocate t s h).2) := by
  rcases init_unbounded t d h hd s with ⟨u, hu, rfl⟩ | hth | ⟨hs, hf⟩
  · left
    generalize hr : Tensor.init t s h = r at hu
    obtain ⟨o, h1⟩ := r
    simp only at hu
    subst hu
    simp only [allocate]
    rw [M.bind_ub hr]
  · right
    simp only [allocate]
    rw [M.bind_throw hth]
    exact ⟨by simp, w⟩
  · right
    rw [allocate_ok hd hs hf]
    exact ⟨by simp, w.allocate hd s hs⟩

theorem ofShape_eq (s : Shape) (h : Heap α) :
    ofShape s h = (do allocate h.descs.length s; pure h.descs.length)
      { h with descs := h.descs ++ [({} : Desc)] } := by
  simp only [ofShape]
  rw [M.bind_ok (new_apply h)]

theorem elemPtr_ok {h : Heap α} (w : WF h) {t : Handle} {d : Desc} (hd : h.descs[t]? = some d)
    {i : Nat} (hi : i < d.total) :
    ∃ p c, elemPtr t i h = (.ok p, h) ∧ cell? h p = some c ∧ elem h t i = some c := by
  obtain ⟨p, hp, h0, hc⟩ := owned_cell (w.owned t d hd) hi
  obtain ⟨c, hc⟩ := Option.isSome_iff_exists.1 hc
  refine ⟨_, c, ?_, hc, by simp [elem, hd, hp, hc]⟩
  simp [elemPtr, M.bind_apply, desc, hd, hp]

/-- One call: no memory error, and the invariant is kept. -/
theorem step_safe {h : Heap α} (w : WF h) (op : Op α) (hl : Legal h op) :
    ((step op h).1 = .ub .overflow ∨ ((step op h).1 = .ub .uninit ∧ (step op h).2 = h)) ∨
      ((∀ u, (step op h).1 ≠ .ub u) ∧ WF (step op h).2) := by
  cases op with
  | new => right; exact ⟨by simp [step, Tensor.new, M.bind_apply], w.new⟩
  | ofShape s =>
    have hd : ({ h with descs := h.descs ++ [({} : Desc)] } : Heap α).descs[h.descs.length]? = some {} := by simp
    have key := allocate_cases w.new hd s
    simp only [step, M.bind_apply]
    rw [ofShape_eq]
    simp only [M.bind_apply]
    generalize allocate h.descs.length s { h with descs := h.descs ++ [({} : Desc)] } = r at *
    obtain ⟨o, h1⟩ := r
    cases o with
    | ok a => right; simpa using key
    | throw e => right; simpa using key
    | ub u => left; left; simpa using key
  | allocate t s =>
    rcases allocate_cases w (List.getElem?_eq_getElem hl) s with h1 | h1
    · left; left; exact h1
    · right; exact h1
  | reshape t s =>
    have hd := List.getElem?_eq_getElem hl
    cases ha : accProd s with
    | ok n =>
      right
      by_cases he : n = (h.descs[t]'hl).total
      · simp only [step]
        rw [reshape_ok hd (he ▸ ha)]
        exact ⟨by simp, w.reshape hd _ _ (by rw [← he, accProd_ok ha]; simp)⟩
      · simp only [step]
        rw [reshape_throw hd ha he]
        exact ⟨by simp, w⟩
    | throw e => exact absurd ha accProd_ne_throw
    | ub u =>
      left; left
      have := accProd_ub ha
      simp [step, Tensor.reshape, M.bind_apply, ha, this]
  | copyTo t u =>
    right
    obtain ⟨h1, h2⟩ := hl
    have ha := List.getElem?_eq_getElem h1
    have hb := List.getElem?_eq_getElem h2
    generalize h.descs[t] = a at ha
    generalize h.descs[u] = b at hb
    simp only [step, Tensor.copyTo]
    rw [M.bind_ok (desc_some ha), M.bind_ok (desc_some hb)]
    cases c1 : (a.shape == b.shape && a.strides == b.strides) with
    | false => rw [M.bind_throw (M.check_false_apply h)]; exact ⟨by simp, w⟩
    | true =>
      rw [M.bind_ok (M.check_true_apply h)]
      cases c2 : (b.total != 0) with
      | false => rw [M.bind_throw (M.check_false_apply h)]; exact ⟨by simp, w⟩
      | true =>
        rw [M.bind_ok (M.check_true_apply h)]
        cases hn : a.total with
        | zero => simp only [copyN]; exact ⟨by simp, w⟩
        | succ n =>
          have oa := w.owned t a ha
          have ob := w.owned u b hb
          have hb0 : b.total ≠ 0 := by simpa using c2
          rcases oa with ⟨-, -, h0⟩ | ⟨ba, ca, m1, d1, l1, t1, q1⟩
          · omega
          rcases ob with ⟨-, -, h0⟩ | ⟨bb, cb, m2, d2, l2, t2, q2⟩
          · omega
          have hsh : a.shape = b.shape := by
            simp only [Bool.and_eq_true, beq_iff_eq] at c1; exact c1.1
          rw [hsh, ← q2] at q1
          have hov : overlaps ⟨ba, 0⟩ ⟨bb, 0⟩ (n + 1) = false := by simp [overlaps]
          obtain ⟨h', e, l, -, -⟩ := copyLoop_spec ⟨ba, 0⟩ ⟨bb, 0⟩ (n + 1) 0 h
            (by intro j _ hj; have : j < ca.length := by omega
                simp [cell?, l1, this])
            (by intro j _ hj; have : j < cb.length := by omega
                simp [cell?, l2, this])
            (Or.inr (Or.inl rfl))
          simp only [d1, d2, copyN, hov, Bool.false_eq_true, if_false]
          rw [e]
          exact ⟨by simp, w.sameLayout l⟩
  | fill t vs =>
    right
    have hd := List.getElem?_eq_getElem hl
    generalize h.descs[t] = d at hd
    simp only [step, Tensor.fill]
    rw [M.bind_ok (desc_some hd)]
    cases hn : d.total with
    | zero => exact ⟨by simp, w⟩
    | succ n =>
      rcases w.owned t d hd with ⟨-, -, h0⟩ | ⟨b, cs, m1, d1, l1, t1, q1⟩
      · omega
      obtain ⟨h', e, l, -, -⟩ := fillLoop_spec ⟨b, 0⟩ vs (n + 1) 0 h
        (by intro j _ hj; have : j < cs.length := by omega
            simp [cell?, l1, this])
      rw [d1]
      simp only
      rw [e]
      exact ⟨by simp, w.sameLayout l⟩
  | read t i =>
    obtain ⟨d, hd, hi⟩ := hl
    obtain ⟨p, c, hp, hc, -⟩ := elemPtr_ok w hd hi
    simp only [step, Tensor.read]
    cases c with
    | none =>
      left; right
      simp [M.bind_apply, hp, loadCell_of_cell? hc]
    | some a =>
      right
      simp [M.bind_apply, hp, loadCell_of_cell? hc, w]
  | write t i v =>
    right
    obtain ⟨d, hd, hi⟩ := hl
    obtain ⟨p, c, hp, hc, -⟩ := elemPtr_ok w hd hi
    simp only [step, Tensor.write]
    rw [M.bind_ok hp, storeCell_of_cell? hc]
    exact ⟨by simp, w.sameLayout (setCell_sameLayout _ _ _)⟩

theorem reachable_wf {h : Heap α} (r : Reachable h) : WF h := by
  induction r with
  | init => exact WF.empty
  | step op _ hl hu ih =>
    rcases step_safe ih op hl with (h1 | ⟨h1, -⟩) | ⟨-, h1⟩
    · exact absurd h1 (hu _)
    · exact absurd h1 (hu _)
    · exact h1

/-- **C05.** In every state reachable by any finite sequence of tensor calls that pass no raw
pointers, a further call with existing tensors and indices below `total()` never touches memory
outside a live buffer. The only undefined outcomes left are the two the caller controls: counting
the elements of a shape overflows `int`, or an element that was never written is read. -/
theorem tensor_memory_safe {h : Heap α} (r : Reachable h) (op : Op α) (hl : Legal h op) (u : Ub)
    (hu : (step op h).1 = .ub u) : u = .overflow ∨ u = .uninit := by
  rcases step_safe (reachable_wf r) op hl with (h1 | ⟨h1, -⟩) | ⟨h1, -⟩
  · rw [h1] at hu; cases hu; exact Or.inl rfl
  · rw [h1] at hu; cases hu; exact Or.inr rfl
  · exact absurd hu (h1 u)

/-- **C05.** In every reachable state each allocated tensor has as many elements as the product of
its dimensions, all of them accessible. -/
theorem tensor_total_invariant {h : Heap α} (r : Reachable h) (t : Handle) (d : Desc)
    (hd : h.descs[t]? = some d) :
    (d.data ≠ none → (d.total : Int) = count d.shape) ∧ ∀ i < d.total, (elem h t i).isSome := by
  have w := reachable_wf r
  refine ⟨fun hne => ?_, fun i hi => ?_⟩
  · rcases w.owned t d hd with ⟨-, h0, -⟩ | ⟨_, _, _, _, _, _, h5⟩
    · exact absurd h0 hne
    · exact h5
  · obtain ⟨p, c, -, -, he⟩ := elemPtr_ok w hd hi
    simp [he]

/-- A reachable heap with two tensors, one of them holding data. -/
example : ∃ h : Heap Nat, Reachable h ∧ h.descs.length = 2 ∧ elem h 0 5 = some (some 7) ∧
    elem h 1 0 = some none := by
  refine ⟨_, .step (.ofShape [4]) (.step (.fill 0 fun _ => 7) (.step (.ofShape [2, 3]) .init
    trivial ?_) ?_ ?_) trivial ?_, ?_, ?_, ?_⟩
  all_goals first
    | decide
    | (intro u; cases u <;> decide)
    | (show 0 < _; decide)

/-! ## C06 -/

/-- **C06.** In every reachable state, distinct tensor objects never share storage: writing an
element of `t` leaves every element of every other separately made tensor as it was, and changes
only the addressed element of `t`. -/
theorem write_no_alias {h : Heap α} (r : Reachable h) (t u : Handle) (d : Desc)
    (hd : h.descs[t]? = some d) (i : Nat) (hi : i < d.total) (v : α) :
    ∃ h', write t i v h = (.ok (), h') ∧ h'.descs = h.descs ∧ elem h' t i = some (some v) ∧
      (∀ j, j ≠ i → elem h' t j = elem h t j) ∧ (u ≠ t → ∀ j, elem h' u j = elem h u j) := by
  have w := reachable_wf r
  rcases w.owned t d hd with ⟨-, -, h0⟩ | ⟨b, cs, m1, d1, l1, t1, q1⟩
  · omega
  have hc : ∃ c, cell? h ⟨b, 0 + i⟩ = some c := by
    have : i < cs.length := by omega
    simp [cell?, l1, this]
  obtain ⟨c, hc⟩ := hc
  refine ⟨setCell h ⟨b, 0 + i⟩ (some v), ?_, setCell_descs _ _ _, ?_, ?_, ?_⟩
  · simp only [Tensor.write, elemPtr, M.bind_apply, desc_some hd, d1]
    exact storeCell_of_cell? hc
  · simp only [elem, setCell_descs, hd, d1]
    rw [cell?_setCell, if_pos ⟨rfl, by rw [hc]; rfl⟩]
  · intro j hj
    simp only [elem, setCell_descs, hd, d1]
    rw [cell?_setCell, if_neg]
    simp; omega
  · intro hut j
    simp only [elem, setCell_descs]
    cases hu : h.descs[u]? with
    | none => rfl
    | some du =>
      rcases w.owned u du hu with ⟨-, e0, -⟩ | ⟨b', cs', m2, d2, -, -, -⟩
      · simp [e0]
      · simp only [d2]
        rw [cell?_setCell, if_neg]
        rintro ⟨hp, -⟩
        simp only [Ptr.mk.injEq] at hp
        obtain ⟨rfl, -⟩ := hp
        exact hut (w.inj u t du d b hu hd m2 m1)

/-- **C06.** Allocating a tensor never changes an element of another tensor. -/
theorem allocate_no_alias {h : Heap α} (r : Reachable h) (t u : Handle) (d : Desc)
    (hd : h.descs[t]? = some d) (shape : Shape) (hs : Static shape) (hf : CountFits shape)
    (hut : u ≠ t) (j : Nat) :
    (allocate t shape h).1 = .ok () ∧ elem (allocate t shape h).2 u j = elem h u j := by
  have w := reachable_wf r
  rw [allocate_ok hd hs hf]
  refine ⟨rfl, ?_⟩
  have hdu : (allocHeap h t d shape).descs[u]? = h.descs[u]? := by
    simp only [allocHeap]; exact List.getElem?_set_ne (Ne.symm hut)
  simp only [elem, hdu]
  cases hu : h.descs[u]? with
  | none => rfl
  | some du =>
    rcases w.owned u du hu with ⟨-, e0, -⟩ | ⟨b', cs', m2, d2, l2, -, -⟩
    · simp [e0]
    · simp only [d2, cell?, allocHeap]
      rw [freed_getElem?]
      · rw [List.getElem?_append_left (lt_of_getElem? l2)]
      · intro hm
        exact hut (w.inj u t du d b' hu hd m2 hm)

/-- **C06.** A view `Tensor(shape, owner.data() + off)` that fits into the owner reads and writes
exactly the owner's elements `off, off+1, ...`. -/
theorem view_aliases {h : Heap α} (r : Reachable h) (t : Handle) (d : Desc) (p : Ptr)
    (hd : h.descs[t]? = some d) (hp : d.data = some p) (off : Nat) (shape : Shape)
    (hs : Static shape) (hf : CountFits shape) (hfit : (off : Int) + count shape ≤ d.total) :
    ∃ v h' dv, ofData shape ⟨p.block, p.off + off⟩ h = (.ok v, h') ∧ h'.descs[v]? = some dv ∧
      dv.shape = shape ∧ (dv.total : Int) = count shape ∧
      (∀ i, elem h' v i = elem h' t (off + i)) ∧
      (∀ i < dv.total, (elem h' v i).isSome) ∧
      (∀ (i : Nat) (x : α), i < dv.total → ∃ h'', write v i x h' = (.ok (), h'') ∧
        elem h'' t (off + i) = some (some x) ∧ ∀ j, j ≠ off + i → elem h'' t j = elem h' t j) ∧
      (∀ u i, u < h.descs.length → elem h' u i = elem h u i) := by
  have w := reachable_wf r
  have htl := lt_of_getElem? hd
  have hcnt : 0 ≤ count shape := prod_nonneg hs
  let h0 : Heap α := { h with descs := h.descs ++ [({} : Desc)] }
  have e : h0.descs[h.descs.length]? = some {} := by simp [h0]
  have hi := init_ok (h := h0) e hs hf
  let h1 : Heap α := { h0 with descs := h0.descs.set h.descs.length (initDesc {} shape) }
  let dv : Desc := { initDesc {} shape with data := some ⟨p.block, p.off + off⟩ }
  let h2 : Heap α := { h1 with descs := h1.descs.set h.descs.length dv }
  have h2d : h2.descs = h.descs ++ [dv] := by simp [h2, h1, h0]
  have h2b : h2.blocks = h.blocks := rfl
  have hv : h2.descs[h.descs.length]? = some dv := by simp [h2d]
  have hold : ∀ u, u < h.descs.length → h2.descs[u]? = h.descs[u]? := by
    intro u hu; rw [h2d]; exact List.getElem?_append_left hu
  have ht2 : h2.descs[t]? = some d := by rw [hold t htl]; exact hd
  have hcell : ∀ q, cell? h2 q = cell? h q := fun q => by simp [cell?, h2b]
  have hdt : (dv.total : Int) = count shape := by simp only [dv, initDesc, count] at *; omega
  have hval : ∀ i < dv.total, (elem h2 h.descs.length i).isSome := by
    intro i hi
    have : off + i < d.total := by omega
    obtain ⟨p', hp', h0', hc⟩ := owned_cell (w.owned t d hd) this
    rw [hp] at hp'; cases hp'
    simp only [elem, hv, dv]
    rw [hcell, show p.off + off + i = p.off + (off + i) by omega]
    exact hc
  refine ⟨h.descs.length, h2, dv, ?_, hv, rfl, hdt, ?_, hval, ?_, ?_⟩
  · simp only [ofData]
    rw [M.bind_ok (new_apply h), M.bind_ok hi]
    have hd1 : h1.descs[h.descs.length]? = some (initDesc {} shape) := by simp [h1, h0]
    rw [M.bind_ok (desc_some hd1)]
    rfl
  · intro i
    simp only [elem, hv, ht2, hp, dv]
    rw [show p.off + off + i = p.off + (off + i) by omega]
  · intro i x hi
    obtain ⟨c, hc⟩ := Option.isSome_iff_exists.1 (hval i hi)
    simp only [elem, hv, dv] at hc
    refine ⟨setCell h2 ⟨p.block, p.off + off + i⟩ (some x), ?_, ?_, ?_⟩
    · simp only [Tensor.write, elemPtr, M.bind_apply, desc_some hv, dv]
      exact storeCell_of_cell? hc
    · simp only [elem, setCell_descs, ht2, hp]
      rw [cell?_setCell, if_pos]
      rw [hc]; simp; omega
    · intro j hj
      simp only [elem, setCell_descs, ht2, hp]
      rw [cell?_setCell, if_neg]
      simp; omega
  · intro u i hu
    simp only [elem, hold u hu, hcell]

/-- **C06.** When the owner is reallocated, its old block is released: any use of a view into it is
undefined (access to freed memory), never silently the new data. -/
theorem view_dangles {h : Heap α} (t v : Handle) (d dv : Desc) (b off : Nat)
    (hd : h.descs[t]? = some d) (hm : d.memory = some b) (hb : b < h.blocks.length)
    (hv : h.descs[v]? = some dv) (hvd : dv.data = some ⟨b, off⟩) (hvt : v ≠ t)
    (shape : Shape) (hs : Static shape) (hf : CountFits shape) (i : Nat) :
    (read v i (allocate t shape h).2).1 = .ub .freed := by
  rw [allocate_ok hd hs hf]
  have hdv : (allocHeap h t d shape).descs[v]? = some dv := by
    simp only [allocHeap]; rw [List.getElem?_set_ne (Ne.symm hvt)]; exact hv
  have hbl : (allocHeap h t d shape).blocks[b]? = some none := by
    simp only [allocHeap, hm, freed]
    have : b < (h.blocks ++ [some (List.replicate (List.prod shape).toNat none)]).length := by
      simp; omega
    rw [List.getElem?_set_self this]
  simp [Tensor.read, elemPtr, M.bind_apply, desc_some hdv, hvd, loadCell, hbl]

/-- C06 on a concrete heap: a two-element view at offset 2 of a six-element tensor, then the owner
is reallocated and the view is dead. -/
example : ∃ h : Heap Nat, Reachable h ∧ (∃ d p, h.descs[0]? = some d ∧ d.data = some p ∧
    ((2 : Nat) : Int) + count [2] ≤ d.total) ∧
    (do let v ← ofData [2] ⟨0, 2⟩; write v 1 9; read 0 3 : M (Heap Nat) Nat) h =
      (.ok 9, ⟨h.descs ++ [⟨[1], [2], none, some ⟨0, 2⟩, 2⟩],
        [some [none, none, none, some 9, none, none]]⟩) ∧
    ((do let v ← ofData [2] ⟨0, 2⟩; allocate 0 [3]; read v 0 : M (Heap Nat) Nat) h).1 = .ub .freed := by
  refine ⟨_, .step (.ofShape [2, 3]) .init trivial (by intro u; cases u <;> decide), ?_, by decide, by decide⟩
  exact ⟨⟨[3, 1], [2, 3], some 0, some ⟨0, 0⟩, 6⟩, ⟨0, 0⟩, by decide, by decide, by decide⟩

/-! ## C07 -/

/-- The generator keeps its contract: values of `uniform_real_distribution(lo, hi)` lie in
`[lo, hi)`. -/
def GenOk (gen : ℝ → ℝ → ℕ → ℝ) : Prop := ∀ lo hi i, lo < hi → lo ≤ gen lo hi i ∧ gen lo hi i < hi

theorem fill_spec {h : Heap α} (r : Reachable h) (t : Handle) (d : Desc) (hd : h.descs[t]? = some d)
    (vs : Nat → α) :
    ∃ h', fill t vs h = (.ok (), h') ∧ h'.descs = h.descs ∧
      (∀ i < d.total, elem h' t i = some (some (vs i))) ∧
      (∀ q, ¬ InBuffer d q → cell? h' q = cell? h q) := by
  have w := reachable_wf r
  cases hn : d.total with
  | zero =>
    refine ⟨h, ?_, rfl, by omega, fun _ _ => rfl⟩
    simp [fill, M.bind_apply, desc_some hd, hn]
  | succ n =>
    rcases w.owned t d hd with ⟨-, -, h0⟩ | ⟨b, cs, m1, d1, l1, t1, q1⟩
    · omega
    obtain ⟨h', e, l, hf, hfr⟩ := fillLoop_spec ⟨b, 0⟩ vs (n + 1) 0 h
      (by intro j _ hj; have : j < cs.length := by omega
          simp [cell?, l1, this])
    refine ⟨h', ?_, l.descs, ?_, ?_⟩
    · simp only [fill, M.bind_apply, desc_some hd, hn, d1]; exact e
    · intro i hi
      simpa [elem, l.descs, hd, d1] using hf i (by omega) (by omega)
    · intro q hq
      apply hfr
      intro hh
      exact hq ⟨⟨b, 0⟩, d1, hh.1, by simp, by simp at hh ⊢; omega⟩

/-- **C07.** `zeros` and `constant` set every element, and change nothing outside the tensor. -/
theorem constant_fills [Zero α] {h : Heap α} (r : Reachable h) (t : Handle) (d : Desc)
    (hd : h.descs[t]? = some d) (v : α) :
    (∃ h', Initializer.constant t v h = (.ok (), h') ∧ h'.descs = h.descs ∧
      (∀ i < d.total, elem h' t i = some (some v)) ∧
      (∀ q, ¬ InBuffer d q → cell? h' q = cell? h q)) ∧
    (∃ h', Initializer.zeros t h = (.ok (), h') ∧ h'.descs = h.descs ∧
      (∀ i < d.total, elem h' t i = some (some 0)) ∧
      (∀ q, ¬ InBuffer d q → cell? h' q = cell? h q)) :=
  ⟨fill_spec r t d hd _, fill_spec r t d hd _⟩

/-- **C07.** `uniform(lower, upper)` leaves every element in `[lower, upper)`. -/
theorem uniform_fills {gen : ℝ → ℝ → ℕ → ℝ} (hg : GenOk gen) {h : Heap ℝ} (r : Reachable h)
    (t : Handle) (d : Desc) (hd : h.descs[t]? = some d) (lo hi : ℝ) (hlt : lo < hi) :
    ∃ h', Initializer.uniform gen t lo hi h = (.ok (), h') ∧ h'.descs = h.descs ∧
      (∀ i < d.total, ∃ x, elem h' t i = some (some x) ∧ lo ≤ x ∧ x < hi) ∧
      (∀ q, ¬ InBuffer d q → cell? h' q = cell? h q) := by
  obtain ⟨h', e, hds, hf, hfr⟩ := fill_spec r t d hd (gen lo hi)
  exact ⟨h', e, hds, fun i hi' => ⟨_, hf i hi', hg lo hi i hlt⟩, hfr⟩

/-- **C07.** `xavierUniform` on a non-empty dense tensor: every element lies in `[-a, a)` with
`a = √6 / (inp + out)`, `(inp, out) = (shape[0], shape[1])` for rank 2 and
`(total/shape[0], shape[0])` for any other rank ≥ 1. -/
theorem xavier_fills {gen : ℝ → ℝ → ℕ → ℝ} (hg : GenOk gen) {h : Heap ℝ} (r : Reachable h)
    (t : Handle) (d : Desc) (hd : h.descs[t]? = some d) (hs : Static d.shape)
    (hne : d.total ≠ 0) (s0 : Int) (rest : List Int) (hsh : d.shape = s0 :: rest)
    (inp out : Int)
    (hio : (∃ s1, rest = [s1] ∧ inp = s0 ∧ out = s1) ∨
      (rest.length ≠ 1 ∧ inp = rest.prod ∧ out = s0)) :
    ∃ h', Initializer.xavierUniform gen t h = (.ok (), h') ∧ h'.descs = h.descs ∧
      (∀ i < d.total, ∃ x, elem h' t i = some (some x) ∧
        -(Real.sqrt 6 / ((inp + out : Int) : ℝ)) ≤ x ∧ x < Real.sqrt 6 / ((inp + out : Int) : ℝ)) ∧
      (∀ q, ¬ InBuffer d q → cell? h' q = cell? h q) := by
  have hdata : d.data ≠ none := by
    rcases (reachable_wf r).owned t d hd with ⟨-, -, h0⟩ | ⟨b, cs, -, d1, -⟩
    · exact absurd h0 hne
    · simp [d1]
  have htot : (d.total : Int) = s0 * rest.prod := by
    have := (tensor_total_invariant r t d hd).1 hdata
    rw [this, hsh]; simp [count]
  rw [hsh, static_cons] at hs
  have hr0 := prod_nonneg hs.2
  have hprod : 0 < s0 * rest.prod := by omega
  have hs0 : 0 < s0 := by
    rcases lt_or_eq_of_le hs.1 with h | h
    · exact h
    · rw [← h] at hprod; simp at hprod
  have hr : 0 < rest.prod := by
    rcases lt_or_eq_of_le hr0 with h | h
    · exact h
    · rw [← h] at hprod; simp at hprod
  have hfeat : Initializer.features d.shape d.total = .ok (inp, out) := by
    rw [hsh]
    rcases hio with ⟨s1, rfl, rfl, rfl⟩ | ⟨hl, rfl, rfl⟩
    · rfl
    · have hdiv : (d.total : Int).tdiv out = rest.prod := by
        rw [htot]; exact Int.mul_tdiv_cancel_left _ hs0.ne'
      unfold Initializer.features
      split
      · simp_all
      · simp_all
      · rename_i heq; cases heq; rw [if_neg hs0.ne', hdiv]
  have hpos : 0 < ((inp + out : Int) : ℝ) := by
    have : 0 < inp + out := by
      rcases hio with ⟨s1, rfl, rfl, rfl⟩ | ⟨hl, rfl, rfl⟩
      · simp at hr; omega
      · omega
    exact_mod_cast this
  have hapos : 0 < Real.sqrt 6 / ((inp + out : Int) : ℝ) := div_pos (by positivity) hpos
  obtain ⟨h', e, hds, hf, hfr⟩ := fill_spec r t d hd
    (gen (-(Real.sqrt 6 / ((inp + out : Int) : ℝ))) (Real.sqrt 6 / ((inp + out : Int) : ℝ)))
  refine ⟨h', ?_, hds, fun i hi' => ⟨_, hf i hi', hg _ _ i (by linarith)⟩, hfr⟩
  simp only [Initializer.xavierUniform]
  rw [M.bind_ok (desc_some hd), hfeat]
  exact e

/-- Rank 0 throws; an empty tensor of rank other than 2 divides by zero (undefined), e.g.
`Linear` is safe (rank 2) but a 4-D `Convolution` weight with 0 output channels is not. -/
theorem xavier_edge (total : Nat) :
    Initializer.features [] total = .throw .dw ∧
    Initializer.features [0, 3, 2, 2] 0 = .ub .divZero ∧
    Initializer.features [0, 3] 0 = .ok (0, 3) := ⟨rfl, rfl, rfl⟩

/-- C07's hypotheses hold for a weight of shape {16,3,5,5}: features (75, 16). -/
example : Initializer.features [16, 3, 5, 5] 1200 = .ok (75, 16) ∧
    Initializer.features [10, 784] 7840 = .ok (10, 784) ∧
    GenOk (fun lo hi i => lo + (hi - lo) / (i + 2)) := by
  refine ⟨by decide, rfl, ?_⟩
  intro lo hi i h
  have h2 : (0:ℝ) < (i:ℝ) + 2 := by positivity
  have h3 : 0 < (hi - lo) / ((i:ℝ) + 2) := div_pos (by linarith) h2
  refine ⟨by linarith, ?_⟩
  have : (hi - lo) / ((i:ℝ) + 2) < hi - lo := by
    apply div_lt_self (by linarith)
    have : (0:ℝ) ≤ (i:ℝ) := by positivity
    linarith
  linarith

end DW.Props.TensorP
