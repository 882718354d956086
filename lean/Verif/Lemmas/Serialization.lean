import Verif.Spec.Serialization
import Mathlib.Tactic.Ring
/-!
# Lemmas about writers and readers
-/

set_option autoImplicit false

namespace DW.SerL

open DW DW.Spec

/-! ### Bytes and numbers -/

@[simp] theorem leBytes_length (k n : Nat) : (leBytes k n).length = k := by
  induction k generalizing n with
  | zero => rfl
  | succ k ih => simp [leBytes, ih]

theorem leNat_leBytes : ∀ (k n : Nat), leNat (leBytes k n) = n % 256 ^ k
  | 0, n => by simp [leBytes, leNat, Nat.mod_one]
  | k + 1, n => by
    simp only [leBytes, leNat, leNat_leBytes k, BitVec.toNat_ofNat]
    rw [show (256 : Nat) ^ (k + 1) = 256 * 256 ^ k from Nat.pow_succ', Nat.mod_mul (b := 256 ^ k) (a := 256)]

theorem leNat_lt : ∀ bs : List Byte, leNat bs < 256 ^ bs.length
  | [] => by simp [leNat]
  | b :: bs => by
    have := leNat_lt bs
    have hb : b.toNat < 256 := b.isLt
    simp only [leNat, List.length_cons, Nat.pow_succ']
    omega

theorem leBytes_leNat : ∀ bs : List Byte, leBytes bs.length (leNat bs) = bs
  | [] => rfl
  | b :: bs => by
    have hb : b.toNat < 256 := b.isLt
    simp only [List.length_cons, leBytes, leNat, List.cons.injEq]
    constructor
    · apply BitVec.eq_of_toNat_eq
      simp only [BitVec.toNat_ofNat]
      omega
    · rw [show (b.toNat + 256 * leNat bs) / 256 = leNat bs by omega]
      exact leBytes_leNat bs

@[simp] theorem intBytes_length (v : Int) : (intBytes v).length = 4 := leBytes_length _ _
@[simp] theorem floatBytes_length (v : F32) : (floatBytes v).length = 4 := leBytes_length _ _
@[simp] theorem fmtSize_length (n : Nat) : (fmtSize n).length = 8 := leBytes_length _ _

theorem bytesInt_intBytes {v : Int} (h : IsInt v) : bytesInt (intBytes v) = v := by
  obtain ⟨h1, h2⟩ := h
  unfold bytesInt intBytes
  rw [leNat_leBytes]
  have : (v % 2 ^ 32).toNat % 256 ^ 4 = (v % 2 ^ 32).toNat := by omega
  rw [this]
  split <;> omega

theorem bytesFloat_floatBytes (v : F32) : bytesFloat (floatBytes v) = v := by
  unfold bytesFloat floatBytes
  rw [leNat_leBytes]
  apply BitVec.eq_of_toNat_eq
  have := v.isLt
  simp only [BitVec.toNat_ofNat]
  omega

theorem byteChar_charByte {c : Char} (h : c.toNat < 256) : byteChar (charByte c) = c := by
  unfold byteChar charByte
  rw [BitVec.toNat_ofNat, Nat.mod_eq_of_lt (by omega), Char.ofNat_toNat]

theorem charByte_byteChar (b : Byte) : charByte (byteChar b) = b := by
  unfold byteChar charByte
  have hb : b.toNat < 256 := b.isLt
  have hv : b.toNat.isValidChar := .inl (by omega)
  have : (Char.ofNat b.toNat).toNat = b.toNat := by
    rw [Char.ofNat, dif_pos hv]
    rfl
  rw [this]
  apply BitVec.eq_of_toNat_eq
  simp only [BitVec.toNat_ofNat]
  omega

theorem bytesString_stringBytes {s : String} (h : IsStr s) : bytesString (stringBytes s) = s := by
  unfold bytesString stringBytes
  rw [List.map_map]
  have : s.toList.map (byteChar ∘ charByte) = s.toList := by
    conv_rhs => rw [← List.map_id s.toList]
    exact List.map_congr_left fun c hc => byteChar_charByte (h c hc)
  rw [this, String.ofList_toList]

theorem stringBytes_bytesString (bs : List Byte) : stringBytes (bytesString bs) = bs := by
  unfold bytesString stringBytes
  rw [String.toList_ofList, List.map_map]
  conv_rhs => rw [← List.map_id bs]
  exact List.map_congr_left fun b _ => charByte_byteChar b

@[simp] theorem stringBytes_length (s : String) : (stringBytes s).length = s.length := by
  simp [stringBytes, String.length_toList]

theorem chunkInts_flatMap : ∀ {l : List Int}, (∀ v ∈ l, IsInt v) →
    chunkInts l.length (l.flatMap intBytes) = l
  | [], _ => rfl
  | v :: l, h => by
    have h4 := intBytes_length v
    simp only [List.length_cons, List.flatMap_cons, chunkInts]
    rw [List.take_left' h4, List.drop_left' h4, bytesInt_intBytes (h v (by simp)),
      chunkInts_flatMap fun x hx => h x (by simp [hx])]

@[simp] theorem flatMap_intBytes_length (l : List Int) : (l.flatMap intBytes).length = l.length * 4 := by
  induction l with
  | nil => rfl
  | cons v l ih => simp [ih]; omega

/-! ### Writers -/

/-- `w` appends exactly `bs`. -/
def Writes (w : W) (bs : List Byte) : Prop := ∀ f, w f = (.ok (), f ++ bs)

theorem writes_put (bs : List Byte) : Writes (put bs) bs := fun _ => rfl

theorem writes_bind {w : W} {w' : Unit → W} {a b : List Byte} (h : Writes w a)
    (h' : Writes (w' ()) b) : Writes (w >>= w') (a ++ b) := fun f => by
  rw [M.bind_ok (h f), h', List.append_assoc]

theorem writes_seq {w w' : W} {a b : List Byte} (h : Writes w a)
    (h' : Writes w' b) : Writes (do w; w') (a ++ b) := writes_bind h h'

theorem writes_size (n : Nat) : Writes (writeSize n) (fmtSize n) := writes_put _
theorem writes_int (n : Int) : Writes (writeInt n) (intBytes n) := writes_put _
theorem writes_float (n : F32) : Writes (writeFloat n) (floatBytes n) := writes_put _
theorem writes_string (s : String) : Writes (writeString s) (fmtString s) :=
  writes_seq (writes_size _) (writes_put _)
theorem writes_ints (l : List Int) : Writes (writeInts l) (fmtInts l) :=
  writes_seq (writes_size _) (writes_put _)
theorem writes_floats (l : List F32) : Writes (writeFloats l) (fmtFloats l) :=
  writes_seq (writes_size _) (writes_put _)

theorem writes_forM {α : Type} {f : α → W} {g : α → List Byte} : ∀ {l : List α},
    (∀ a ∈ l, Writes (f a) (g a)) → Writes (l.forM f) (l.flatMap g)
  | [], _ => fun f => by simp [List.forM]
  | a :: l, h => by
    simp only [List.forM_eq_forM, List.forM_cons, List.flatMap_cons]
    refine writes_seq (h a (by simp)) ?_
    have := writes_forM (f := f) (g := g) (l := l) fun x hx => h x (by simp [hx])
    simpa only [List.forM_eq_forM] using this

theorem writes_entry (en : String × SavedTensor) : Writes (saveEntry en) (fmtEntry en) := by
  unfold fmtEntry
  rw [List.append_assoc]
  exact writes_seq (writes_string _) (writes_seq (writes_ints _) (writes_put _))

theorem writes_state (d : Dict) : Writes (saveState d) (fmtState d) := by
  unfold fmtState
  rw [List.append_assoc]
  exact writes_seq (writes_int _) (writes_seq (writes_size _) (writes_forM fun en _ => writes_entry en))

theorem writes_attr {a : AttrVal} (h : OkAttr a) : Writes (writeAttribute a) (fmtAttr a) := by
  cases a with
  | unsupported => exact h.elim
  | _ =>
    simp only [fmtAttr, writeAttribute, List.append_assoc]
    refine writes_seq (writes_int _) (writes_seq (writes_int _) ?_)
    first | exact writes_int _ | exact writes_float _ | exact writes_ints _ | exact writes_floats _

theorem writes_attrs {l : Attrs} (h : ∀ a ∈ l, OkAttr a.2) : Writes (writeAttributes l) (fmtAttrs l) :=
  writes_seq (writes_size _) (writes_forM fun a ha => writes_seq (writes_string _) (writes_attr (h a ha)))

theorem writes_op {o : OpInfo} (h : ∀ a ∈ o.attrs, OkAttr a.2) : Writes (saveOp o) (fmtOp o) := by
  unfold fmtOp
  simp only [List.append_assoc]
  exact writes_seq (writes_string _) (writes_seq (writes_string _) (writes_seq (writes_ints _)
    (writes_seq (writes_ints _) (writes_attrs h))))

theorem writes_cfg {c : Config} (h : ∀ o ∈ c.sortedOps, ∀ a ∈ o.attrs, OkAttr a.2) :
    Writes (saveCfg c) (fmtCfg c) := by
  unfold fmtCfg
  simp only [List.append_assoc]
  exact writes_seq (writes_int _) (writes_seq (writes_ints _) (writes_seq (writes_ints _)
    (writes_seq (writes_size _) (writes_seq (writes_forM fun p _ => writes_seq (writes_int _) (writes_ints _))
      (writes_seq (writes_size _) (writes_forM fun o ho => writes_op (h o ho)))))))

/-! ### Readers on complete input -/

/-- `r` consumes exactly `bs` and returns `a`. -/
def Reads {α : Type} (r : R α) (bs : List Byte) (a : α) : Prop :=
  ∀ rest, r ⟨bs ++ rest, false⟩ = (.ok a, ⟨rest, false⟩)

theorem reads_pure {α : Type} (a : α) : Reads (pure a) [] a := fun _ => rfl

theorem reads_bind {α β : Type} {r : R α} {f : α → R β} {a : α} {b : β} {x y : List Byte}
    (h : Reads r x a) (h' : Reads (f a) y b) : Reads (r >>= f) (x ++ y) b := fun rest => by
  rw [List.append_assoc, M.bind_ok (h _), h']

theorem reads_map {α β : Type} {r : R α} {f : α → β} {a : α} {x : List Byte}
    (h : Reads r x a) : Reads (do let v ← r; pure (f v)) x (f a) := by
  have := reads_bind (f := fun v => (pure (f v) : R β)) h (reads_pure (f a))
  rwa [List.append_nil] at this

theorem reads_bytes {bs : List Byte} (h : bs.length < 2 ^ 63) : Reads (readBytes bs.length) bs bs := by
  intro rest
  unfold readBytes
  simp only [Bool.false_eq_true, if_false]
  rw [if_neg (by omega), if_pos (by simp)]
  simp

theorem reads_zeroed {bs : List Byte} (h : bs.length < 2 ^ 63) : Reads (readZeroed bs.length) bs bs := by
  have := reads_map (f := fun b : List Byte => b ++ List.replicate (bs.length - b.length) 0) (reads_bytes h)
  simpa [readZeroed] using this

theorem reads_int {v : Int} (h : IsInt v) : Reads readInt (intBytes v) v := by
  have h1 := reads_zeroed (bs := intBytes v) (by simp)
  rw [intBytes_length] at h1
  have := reads_map (f := bytesInt) h1
  rwa [bytesInt_intBytes h] at this

theorem reads_size {n : Nat} (h : n < 2 ^ 64) : Reads readSize (fmtSize n) n := by
  have h1 := reads_zeroed (bs := fmtSize n) (by simp)
  rw [fmtSize_length] at h1
  have := reads_map (f := leNat) h1
  rwa [fmtSize, leNat_leBytes, Nat.mod_eq_of_lt (by omega)] at this

theorem reads_float (v : F32) : Reads readFloat (floatBytes v) v := by
  have h1 := reads_zeroed (bs := floatBytes v) (by simp)
  rw [floatBytes_length] at h1
  have := reads_map (f := bytesFloat) h1
  rwa [bytesFloat_floatBytes] at this

theorem reads_resize {lim n k : Nat} (h : n * k ≤ lim) : Reads (resize lim n k) [] () := fun rest => by
  simp [resize, h]

theorem reads_nil_bind {α β : Type} {r : R α} {f : α → R β} {a : α} {b : β} {y : List Byte}
    (h : Reads r [] a) (h' : Reads (f a) y b) : Reads (r >>= f) y b := by
  simpa using reads_bind h h'

theorem reads_string {lim : Nat} (hl : lim < 2 ^ 63) {s : String} (h : OkStr lim s) :
    Reads (readString lim) (fmtString s) s := by
  obtain ⟨hs, hlen⟩ := h
  refine reads_bind (reads_size (by omega)) (reads_nil_bind (reads_resize (by omega)) ?_)
  have h1 := reads_zeroed (bs := stringBytes s) (by simp; omega)
  rw [stringBytes_length] at h1
  have := reads_map (f := bytesString) h1
  rwa [bytesString_stringBytes hs] at this

theorem reads_ints {lim : Nat} (hl : lim < 2 ^ 63) {l : List Int} (h : OkInts lim l) :
    Reads (readInts lim) (fmtInts l) l := by
  obtain ⟨hs, hlen⟩ := h
  refine reads_bind (reads_size (by omega)) (reads_nil_bind (reads_resize (by omega)) ?_)
  have h1 := reads_zeroed (bs := l.flatMap intBytes) (by simp; omega)
  rw [flatMap_intBytes_length] at h1
  have := reads_map (f := chunkInts l.length) h1
  rwa [chunkInts_flatMap hs] at this

theorem reads_array {bs : List Byte} (h : bs.length = 8) :
    Reads readArray (fmtSize 2 ++ bs) bs := by
  refine reads_bind (reads_size (n := 2) (by omega)) ?_
  have h1 := reads_bytes (bs := bs) (by omega)
  rw [h] at h1
  have h2 : Reads (M.lift (if bs.length = 8 then .ok bs else if bs.length < 8 then .ub .uninit
    else .ub .oob) : R (List Byte)) [] bs := fun rest => by simp [h]
  simpa using reads_bind (f := fun bs => (M.lift (if bs.length = 8 then .ok bs
    else if bs.length < 8 then .ub .uninit else .ub .oob) : R (List Byte))) h1 h2

theorem isInt_small {n : Nat} (h : n < 2 ^ 31) : IsInt (n : Int) := ⟨by omega, by omega⟩

theorem reads_attr {a : AttrVal} (h : OkAttr a) : Reads readAttribute (fmtAttr a) a := by
  have i0 : IsInt 0 := ⟨by decide, by decide⟩
  have i1 : IsInt 1 := ⟨by decide, by decide⟩
  have i2 : IsInt 2 := ⟨by decide, by decide⟩
  cases a with
  | unsupported => exact h.elim
  | int v =>
    simp only [fmtAttr, readAttribute, List.append_assoc]
    refine reads_bind (reads_int i0) (reads_bind (reads_int i1) ?_)
    exact reads_map (f := AttrVal.int) (reads_int h)
  | float v =>
    simp only [fmtAttr, readAttribute, List.append_assoc]
    refine reads_bind (reads_int i0) (reads_bind (reads_int i2) ?_)
    exact reads_map (f := AttrVal.float) (reads_float v)
  | ints a b =>
    simp only [fmtAttr, readAttribute, List.append_assoc]
    refine reads_bind (reads_int i1) (reads_bind (reads_int i1) ?_)
    have h1 := reads_array (bs := intBytes a ++ intBytes b) (by simp)
    have h2 := reads_map (f := fun bs => AttrVal.ints (bytesInt (bs.take 4)) (bytesInt (bs.drop 4))) h1
    rw [List.take_left' (intBytes_length a), List.drop_left' (intBytes_length a),
      bytesInt_intBytes h.1, bytesInt_intBytes h.2] at h2
    simpa [fmtInts] using h2
  | floats a b =>
    simp only [fmtAttr, readAttribute, List.append_assoc]
    refine reads_bind (reads_int i1) (reads_bind (reads_int i2) ?_)
    have h1 := reads_array (bs := floatBytes a ++ floatBytes b) (by simp)
    have h2 := reads_map (f := fun bs => AttrVal.floats (bytesFloat (bs.take 4)) (bytesFloat (bs.drop 4))) h1
    rw [List.take_left' (floatBytes_length a), List.drop_left' (floatBytes_length a),
      bytesFloat_floatBytes, bytesFloat_floatBytes] at h2
    simpa [fmtFloats] using h2

/-- A loop reading one item per iteration. -/
theorem reads_loop {α β : Type} {body : List β → R (List β)} {fmt : α → List Byte} {val : α → β} :
    ∀ {l : List α} {i : Nat} {acc : List β}, i + l.length < 2 ^ 31 →
    (∀ pre a post, l = pre ++ a :: post →
      Reads (body (acc ++ pre.map val)) (fmt a) (acc ++ pre.map val ++ [val a])) →
    Reads (intLoopAcc body i l.length acc) (l.flatMap fmt) (acc ++ l.map val)
  | [], i, acc, _, _ => by simpa [intLoopAcc] using reads_pure acc
  | a :: l, i, acc, hi, h => by
    simp only [List.length_cons, intLoopAcc, List.flatMap_cons]
    simp only [List.length_cons] at hi
    have h1 := h [] a l rfl
    simp only [List.map_nil, List.append_nil] at h1
    refine reads_bind h1 ?_
    rw [if_neg (by omega)]
    have := reads_loop (body := body) (fmt := fmt) (val := val) (l := l) (i := i + 1) (acc := acc ++ [val a])
      (by omega) (fun pre b post hl => by
        have := h (a :: pre) b post (by simp [hl])
        simpa using this)
    simpa using this

theorem lookup_none {α β : Type} [BEq α] [LawfulBEq α] {k : α} : ∀ {l : List (α × β)},
    k ∉ l.map Prod.fst → l.lookup k = none
  | [], _ => rfl
  | (a, b) :: l, h => by
    simp only [List.map_cons, List.mem_cons, not_or] at h
    rw [List.lookup_cons, beq_false_of_ne h.1]
    exact lookup_none h.2

theorem reads_attrs {lim : Nat} (hl : lim < 2 ^ 63) {l : Attrs} (hk : (l.map Prod.fst).Nodup)
    (ha : ∀ a ∈ l, OkStr lim a.1 ∧ OkAttr a.2) (hc : l.length < 2 ^ 31) :
    Reads (readAttributes lim) (fmtAttrs l) l := by
  refine reads_bind (reads_size (by omega)) ?_
  have := reads_loop (body := fun acc : Attrs => do
      let name ← readString lim
      let attr ← readAttribute
      pure (emplace acc name attr)) (fmt := fun a : String × AttrVal => fmtString a.1 ++ fmtAttr a.2)
    (val := id) (l := l) (i := 0) (acc := []) (by omega) (by
      intro pre a post hlp
      have ham : a ∈ l := by simp [hlp]
      refine reads_bind (reads_string hl (ha a ham).1) ?_
      have h1 := reads_map (f := fun v => emplace ([] ++ pre.map id) a.1 v) (reads_attr (ha a ham).2)
      have h2 : emplace ([] ++ pre.map id) a.1 a.2 = [] ++ pre.map id ++ [id a] := by
        have : pre.lookup a.1 = none := by
          apply lookup_none
          rw [hlp] at hk
          simp only [List.map_append, List.map_cons] at hk
          have := (List.nodup_append.1 hk).2.2
          intro hm
          exact this _ hm a.1 (by simp) rfl
        simp [emplace, this]
      rw [h2] at h1
      exact h1)
  simpa using this

theorem reads_op {lim : Nat} (hl : lim < 2 ^ 63) {o : OpInfo} (h : OkOp lim o) (acc : List OpInfo) :
    Reads (loadOp lim acc) (fmtOp o) (acc ++ [o]) := by
  have h1 := reads_map (f := fun attrs => acc ++ [(⟨o.name, o.type, attrs, o.inIds, o.outIds⟩ : OpInfo)])
    (reads_attrs hl h.keys h.attr h.count)
  unfold fmtOp loadOp
  simp only [List.append_assoc]
  refine reads_bind (reads_string hl h.name) ?_
  refine reads_bind (reads_string hl h.type) ?_
  refine reads_bind (reads_ints hl h.inIds) ?_
  refine reads_bind (reads_ints hl h.outIds) ?_
  exact h1

theorem reads_ph {lim : Nat} (hl : lim < 2 ^ 63) {p : Int × (Shape × Int)} (h1 : IsInt p.1)
    (h2 : OkInts lim p.2.1) (h3 : p.2.2 = p.1) (acc : List (Int × (Shape × Int)))
    (hn : p.1 ∉ acc.map Prod.fst) : Reads (loadPh lim acc) (fmtPh p) (acc ++ [p]) := by
  have h4 := reads_map (f := fun shape => emplaceInt acc p.1 (shape, p.1)) (reads_ints hl h2)
  have h5 : emplaceInt acc p.1 (p.2.1, p.1) = acc ++ [p] := by
    simp only [emplaceInt, lookup_none hn]
    have : (p.1, p.2.1, p.1) = p := by
      rcases p with ⟨a, b, c⟩
      simp only at h3
      rw [h3]
    simp [this]
  rw [h5] at h4
  exact reads_bind (reads_int h1) h4

theorem reads_cfg {lim : Nat} (hl : lim < 2 ^ 63) {c : Config} (h : OkCfg lim c) :
    Reads (loadCfg lim) (fmtCfg c) c := by
  unfold fmtCfg
  simp only [List.append_assoc]
  have i1 : IsInt 1 := ⟨by decide, by decide⟩
  refine reads_bind (reads_int i1) (reads_nil_bind (a := ()) (fun rest => rfl) (reads_bind (reads_ints hl h.inputs)
    (reads_bind (reads_ints hl h.outputs) (reads_bind (reads_size (by have := h.phCount; omega))
      (reads_bind (a := c.phMap) ?_ (reads_bind (reads_size (by have := h.opCount; omega))
        (reads_map (a := c.sortedOps) (f := fun ops => (⟨c.inputIds, c.outputIds, c.phMap, ops⟩ : Config)) ?_)))))))
  · have := reads_loop (body := loadPh lim) (fmt := fmtPh) (val := id) (l := c.phMap) (i := 0) (acc := [])
      (by have := h.phCount; omega) (by
        intro pre a post hlp
        have ham : a ∈ c.phMap := by simp [hlp]
        obtain ⟨h1, h2, h3⟩ := h.ph a ham
        refine reads_ph hl h1 h2 h3 _ ?_
        have hk := h.keys
        rw [hlp] at hk
        simp only [List.map_append, List.map_cons] at hk
        have := (List.nodup_append.1 hk).2.2
        simp only [List.nil_append, List.map_id]
        intro hm
        exact this _ hm a.1 (by simp) rfl)
    simpa using this
  · have := reads_loop (body := loadOp lim) (fmt := fmtOp) (val := id) (l := c.sortedOps) (i := 0) (acc := [])
      (by have := h.opCount; omega) (by
        intro pre a post hlp
        exact reads_op hl (h.op a (by simp [hlp])) _)
    simpa using this

end DW.SerL
