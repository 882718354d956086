import Verif.Lemmas.Serialization
/-!
# Readers on arbitrary, possibly too short input

A read past the end delivers what is left and leaves zeros behind it, so a reader of zeroed values
behaves as if the file were followed by infinitely many zero bytes.
-/

set_option autoImplicit false

namespace DW.SerL

open DW DW.Spec

/-- A failed stream has delivered everything. -/
def Inv (s : IStream) : Prop := s.failed = true → s.data = []

/-- The stream after asking for `n` bytes. -/
def adv (n : Nat) (s : IStream) : IStream := ⟨s.data.drop n, s.failed || decide (s.data.length < n)⟩

/-- `p` is a prefix of `data` followed by zeros. -/
def ZPre (p data : List Byte) : Prop := ∀ i : Nat, i < p.length → p[i]? = some (data[i]?.getD 0)

theorem inv_adv {s : IStream} (h : Inv s) (n : Nat) : Inv (adv n s) := by
  intro hf
  simp only [adv, Bool.or_eq_true, decide_eq_true_eq] at hf ⊢
  rcases hf with hf | hf
  · rw [h hf]; simp
  · rw [List.drop_eq_nil_of_le (by omega)]

theorem adv_adv (s : IStream) (n m : Nat) : adv m (adv n s) = adv (n + m) s := by
  simp only [adv, List.drop_drop, List.length_drop, Bool.or_assoc, IStream.mk.injEq, true_and]
  congr 1
  rw [Bool.eq_iff_iff]
  simp only [Bool.or_eq_true, decide_eq_true_eq]
  omega

theorem adv_zero (s : IStream) : adv 0 s = s := by simp [adv]

theorem adv_ok {data : List Byte} {n : Nat} (h : n ≤ data.length) :
    adv n ⟨data, false⟩ = ⟨data.drop n, false⟩ := by
  simp only [adv, Bool.false_or, IStream.mk.injEq, true_and, decide_eq_false_iff_not]
  omega

theorem zpre_nil (data : List Byte) : ZPre [] data := fun i h => by simp at h

theorem zpre_self (p rest : List Byte) : ZPre p (p ++ rest) := fun i h => by
  rw [List.getElem?_append_left h, List.getElem?_eq_getElem h]; rfl

theorem zpre_append {p q data : List Byte} :
    ZPre (p ++ q) data ↔ ZPre p data ∧ ZPre q (data.drop p.length) := by
  constructor
  · intro h
    constructor
    · intro i hi
      have := h i (by simp; omega)
      rwa [List.getElem?_append_left hi] at this
    · intro i hi
      have := h (p.length + i) (by simp; omega)
      rw [List.getElem?_append_right (by omega), Nat.add_sub_cancel_left] at this
      rw [this, List.getElem?_drop]
  · rintro ⟨h1, h2⟩ i hi
    by_cases hp : i < p.length
    · rw [List.getElem?_append_left hp, h1 i hp]
    · rw [List.getElem?_append_right (by omega)]
      rw [h2 (i - p.length) (by simp at hi; omega), List.getElem?_drop]
      congr 3
      omega

theorem zpre_length_le {p data : List Byte} (h : ZPre p data) (hl : p.length ≤ data.length) :
    data = p ++ data.drop p.length := by
  have : p = data.take p.length := by
    apply List.ext_getElem?
    intro i
    by_cases hi : i < p.length
    · rw [h i hi, List.getElem?_take_of_lt hi, List.getElem?_eq_getElem (by omega)]; rfl
    · rw [List.getElem?_eq_none (by omega), List.getElem?_eq_none (by simp; omega)]
  conv_lhs => rw [← List.take_append_drop p.length data, ← this]

/-- What zeroed storage of `n` bytes holds after a read. -/
def padTake (n : Nat) (data : List Byte) : List Byte :=
  data.take n ++ List.replicate (n - (data.take n).length) 0

@[simp] theorem padTake_length (n : Nat) (data : List Byte) : (padTake n data).length = n := by
  simp only [padTake, List.length_append, List.length_replicate, List.length_take]; omega

theorem zpre_padTake (n : Nat) (data : List Byte) : ZPre (padTake n data) data := by
  intro i hi
  rw [padTake_length] at hi
  unfold padTake
  by_cases h : i < (data.take n).length
  · rw [List.getElem?_append_left h, List.getElem?_take_of_lt hi]
    simp only [List.length_take] at h
    rw [List.getElem?_eq_getElem (by omega)]; rfl
  · rw [List.getElem?_append_right (by omega), List.getElem?_replicate]
    simp only [List.length_take] at h
    rw [if_pos (by simp only [List.length_take]; omega), List.getElem?_eq_none (by omega)]; rfl

theorem zpre_unique {p q data : List Byte} (hp : ZPre p data) (hq : ZPre q data)
    (hl : p.length = q.length) : p = q := by
  apply List.ext_getElem?
  intro i
  by_cases hi : i < p.length
  · rw [hp i hi, hq i (by omega)]
  · rw [List.getElem?_eq_none (by omega), List.getElem?_eq_none (by omega)]

theorem zpre_iff {p data : List Byte} : ZPre p data ↔ p = padTake p.length data := by
  constructor
  · intro h; exact zpre_unique h (zpre_padTake _ _) (by simp)
  · intro h; rw [h]; exact zpre_padTake _ _

/-! ### The readers as functions of the remaining bytes -/

theorem readBytes_eq {n : Nat} (hn : n < 2 ^ 63) {s : IStream} (h : Inv s) :
    readBytes n s = (.ok (s.data.take n), adv n s) := by
  unfold readBytes adv
  by_cases hf : s.failed = true
  · rw [if_pos hf, h hf]
    rcases s with ⟨data, failed⟩
    simp only at hf
    have := h hf
    simp only at this
    simp [hf, this]
  · simp only [Bool.not_eq_true] at hf
    rw [hf, if_neg (by simp), if_neg (by omega)]
    by_cases hl : n ≤ s.data.length
    · rw [if_pos hl]
      have : ¬ s.data.length < n := by omega
      simp [this]
    · rw [if_neg hl]
      have h1 : s.data.length < n := by omega
      simp [h1, List.take_of_length_le (Nat.le_of_lt h1), List.drop_eq_nil_of_le (Nat.le_of_lt h1)]

theorem readZeroed_eq {n : Nat} (hn : n < 2 ^ 63) {s : IStream} (h : Inv s) :
    readZeroed n s = (.ok (padTake n s.data), adv n s) := by
  unfold readZeroed
  rw [M.bind_ok (readBytes_eq hn h)]
  rfl

theorem readSize_eq {s : IStream} (h : Inv s) :
    readSize s = (.ok (leNat (padTake 8 s.data)), adv 8 s) := by
  unfold readSize
  rw [M.bind_ok (readZeroed_eq (by omega) h)]
  rfl

theorem readInt_eq {s : IStream} (h : Inv s) :
    readInt s = (.ok (bytesInt (padTake 4 s.data)), adv 4 s) := by
  unfold readInt
  rw [M.bind_ok (readZeroed_eq (by omega) h)]
  rfl

theorem intBytes_bytesInt {bs : List Byte} (h : bs.length = 4) :
    intBytes (bytesInt bs) = bs ∧ IsInt (bytesInt bs) := by
  have hlt := leNat_lt bs
  rw [h] at hlt
  have h2 : leBytes 4 (leNat bs) = bs := by rw [← h]; exact leBytes_leNat bs
  unfold intBytes bytesInt IsInt
  split
  · refine ⟨?_, by omega, by omega⟩
    have : ((leNat bs : Int) % 2 ^ 32).toNat = leNat bs := by omega
    rw [this, h2]
  · refine ⟨?_, by omega, by omega⟩
    have : (((leNat bs : Int) - 2 ^ 32) % 2 ^ 32).toNat = leNat bs := by omega
    rw [this, h2]

theorem fmtSize_leNat {bs : List Byte} (h : bs.length = 8) : fmtSize (leNat bs) = bs := by
  unfold fmtSize
  rw [← h]
  exact leBytes_leNat bs

theorem chunkInts_spec : ∀ (n : Nat) {bs : List Byte}, bs.length = n * 4 →
    (chunkInts n bs).flatMap intBytes = bs ∧ (∀ v ∈ chunkInts n bs, IsInt v) ∧ (chunkInts n bs).length = n
  | 0, bs, h => by
    have : bs = [] := List.length_eq_zero_iff.1 (by omega)
    simp [chunkInts, this]
  | n + 1, bs, h => by
    obtain ⟨h1, h2, h3⟩ := chunkInts_spec n (bs := bs.drop 4) (by simp; omega)
    obtain ⟨h4, h5⟩ := intBytes_bytesInt (bs := bs.take 4) (by simp; omega)
    refine ⟨?_, ?_, by simp [chunkInts, h3]⟩
    · simp only [chunkInts, List.flatMap_cons, h1, h4, List.take_append_drop]
    · intro v hv
      simp only [chunkInts, List.mem_cons] at hv
      rcases hv with rfl | hv
      · exact h5
      · exact h2 v hv

@[simp] theorem fmtString_length (s : String) : (fmtString s).length = 8 + s.length := by
  simp [fmtString]

@[simp] theorem fmtInts_length (l : List Int) : (fmtInts l).length = 8 + l.length * 4 := by
  simp [fmtInts]

theorem isStr_bytesString (bs : List Byte) : IsStr (bytesString bs) := by
  intro c hc
  unfold bytesString at hc
  rw [String.toList_ofList, List.mem_map] at hc
  obtain ⟨b, -, rfl⟩ := hc
  have hb : b.toNat < 256 := b.isLt
  have hv : b.toNat.isValidChar := .inl (by omega)
  unfold byteChar
  rw [Char.ofNat, dif_pos hv]
  exact hb

theorem bytesString_length (bs : List Byte) : (bytesString bs).length = bs.length := by
  rw [← stringBytes_length, stringBytes_bytesString]

/-- What `read_sequence<std::string>` does on any stream. -/
theorem readString_cases {lim : Nat} (hl : lim < 2 ^ 63) {s : IStream} (h : Inv s) :
    (∃ v, readString lim s = (.ok v, adv (fmtString v).length s) ∧ ZPre (fmtString v) s.data ∧ OkStr lim v) ∨
    (readString lim s = (.throw .alloc, adv 8 s) ∧ lim < leNat (padTake 8 s.data)) := by
  unfold readString
  rw [M.bind_ok (readSize_eq h)]
  by_cases hs : leNat (padTake 8 s.data) ≤ lim
  · left
    have hr : resize lim (leNat (padTake 8 s.data)) 1 (adv 8 s) = (.ok (), adv 8 s) := by
      simp [resize, hs]
    rw [M.bind_ok hr, M.bind_ok (readZeroed_eq (by omega) (inv_adv h 8))]
    generalize hv : padTake (leNat (padTake 8 s.data)) (adv 8 s).data = bs
    have hlen : bs.length = leNat (padTake 8 s.data) := by rw [← hv]; simp
    have hf : fmtString (bytesString bs) = padTake 8 s.data ++ bs := by
      unfold fmtString
      rw [bytesString_length, stringBytes_bytesString, hlen, fmtSize_leNat (by simp)]
    refine ⟨bytesString bs, ?_, ?_, isStr_bytesString bs, by rw [bytesString_length, hlen]; exact hs⟩
    · rw [M.pure_apply, adv_adv, fmtString_length, bytesString_length, hlen]
    · rw [hf, zpre_append]
      refine ⟨zpre_padTake _ _, ?_⟩
      rw [padTake_length, ← hv]
      exact zpre_padTake _ _
  · right
    refine ⟨?_, by omega⟩
    have hr : resize lim (leNat (padTake 8 s.data)) 1 (adv 8 s) = (.throw .alloc, adv 8 s) := by
      simp [resize, hs]
    rw [M.bind_throw hr]

/-- What `read_sequence<std::vector<int>>` does on any stream. -/
theorem readInts_cases {lim : Nat} (hl : lim < 2 ^ 63) {s : IStream} (h : Inv s) :
    (∃ v, readInts lim s = (.ok v, adv (fmtInts v).length s) ∧ ZPre (fmtInts v) s.data ∧ OkInts lim v) ∨
    (readInts lim s = (.throw .alloc, adv 8 s) ∧ lim < leNat (padTake 8 s.data) * 4) := by
  unfold readInts
  rw [M.bind_ok (readSize_eq h)]
  by_cases hs : leNat (padTake 8 s.data) * 4 ≤ lim
  · left
    have hr : resize lim (leNat (padTake 8 s.data)) 4 (adv 8 s) = (.ok (), adv 8 s) := by
      simp [resize, hs]
    rw [M.bind_ok hr, M.bind_ok (readZeroed_eq (by omega) (inv_adv h 8))]
    generalize hv : padTake (leNat (padTake 8 s.data) * 4) (adv 8 s).data = bs
    have hlen : bs.length = leNat (padTake 8 s.data) * 4 := by rw [← hv]; simp
    obtain ⟨h1, h2, h3⟩ := chunkInts_spec _ hlen
    have hf : fmtInts (chunkInts (leNat (padTake 8 s.data)) bs) = padTake 8 s.data ++ bs := by
      unfold fmtInts
      rw [h1, h3, fmtSize_leNat (by simp)]
    refine ⟨chunkInts (leNat (padTake 8 s.data)) bs, ?_, ?_, h2, by rw [h3]; exact hs⟩
    · rw [M.pure_apply, adv_adv, fmtInts_length, h3]
    · rw [hf, zpre_append]
      refine ⟨zpre_padTake _ _, ?_⟩
      rw [padTake_length, ← hv]
      exact zpre_padTake _ _
  · right
    refine ⟨?_, by omega⟩
    have hr : resize lim (leNat (padTake 8 s.data)) 4 (adv 8 s) = (.throw .alloc, adv 8 s) := by
      simp [resize, hs]
    rw [M.bind_throw hr]

theorem fmtSize_inj {n m : Nat} (hn : n < 2 ^ 64) (hm : m < 2 ^ 64) (h : fmtSize n = fmtSize m) : n = m := by
  have := congrArg leNat h
  unfold fmtSize at this
  rw [leNat_leBytes, leNat_leBytes, Nat.mod_eq_of_lt (by omega), Nat.mod_eq_of_lt (by omega)] at this
  exact this

/-- Strings and int lists are determined by the bytes at the front of the stream. -/
theorem fmtInts_unique {lim : Nat} (hl : lim < 2 ^ 63) {v w : List Int} {data : List Byte}
    (hv : OkInts lim v) (hw : OkInts lim w) (h1 : ZPre (fmtInts v) data) (h2 : ZPre (fmtInts w) data) :
    v = w := by
  have ha := (zpre_append.1 h1).1
  have hb := (zpre_append.1 h2).1
  have hlen : v.length = w.length :=
    fmtSize_inj (by have := hv.2; omega) (by have := hw.2; omega) (zpre_unique ha hb (by simp))
  have := zpre_unique h1 h2 (by simp [hlen])
  unfold fmtInts at this
  rw [hlen] at this
  have := List.append_cancel_left this
  rw [← chunkInts_flatMap hv.1, ← chunkInts_flatMap hw.1, this, hlen]

theorem fmtString_unique {lim : Nat} (hl : lim < 2 ^ 63) {v w : String} {data : List Byte}
    (hv : OkStr lim v) (hw : OkStr lim w) (h1 : ZPre (fmtString v) data) (h2 : ZPre (fmtString w) data) :
    v = w := by
  have ha := (zpre_append.1 h1).1
  have hb := (zpre_append.1 h2).1
  have hlen : v.length = w.length :=
    fmtSize_inj (by have := hv.2; omega) (by have := hw.2; omega) (zpre_unique ha hb (by simp))
  have := zpre_unique h1 h2 (by simp [hlen])
  unfold fmtString at this
  rw [hlen] at this
  have := List.append_cancel_left this
  rw [← bytesString_stringBytes hv.1, ← bytesString_stringBytes hw.1, this]

theorem readInts_of_zpre {lim : Nat} (hl : lim < 2 ^ 63) {s : IStream} (h : Inv s) {v : List Int}
    (hv : OkInts lim v) (hz : ZPre (fmtInts v) s.data) :
    readInts lim s = (.ok v, adv (fmtInts v).length s) := by
  rcases readInts_cases hl h with ⟨w, hw, hz', hok⟩ | ⟨-, hlim⟩
  · have := fmtInts_unique hl hv hok hz hz'
    subst this
    exact hw
  · exfalso
    have h1 := (zpre_append.1 hz).1
    rw [zpre_iff, fmtSize_length] at h1
    rw [← h1, fmtSize, leNat_leBytes, Nat.mod_eq_of_lt (by have := hv.2; omega)] at hlim
    have := hv.2
    omega

theorem readString_of_zpre {lim : Nat} (hl : lim < 2 ^ 63) {s : IStream} (h : Inv s) {v : String}
    (hv : OkStr lim v) (hz : ZPre (fmtString v) s.data) :
    readString lim s = (.ok v, adv (fmtString v).length s) := by
  rcases readString_cases hl h with ⟨w, hw, hz', hok⟩ | ⟨-, hlim⟩
  · have := fmtString_unique hl hv hok hz hz'
    subst this
    exact hw
  · exfalso
    have h1 := (zpre_append.1 hz).1
    rw [zpre_iff, fmtSize_length] at h1
    rw [← h1, fmtSize, leNat_leBytes, Nat.mod_eq_of_lt (by have := hv.2; omega)] at hlim
    have := hv.2
    omega

/-! ### Dicts -/

/-- Names, shapes and sizes of a dict, in order. -/
def layout (d : Dict) : List (String × Shape × Nat) := d.map fun en => (en.1, en.2.shape, en.2.bytes.length)

theorem layout_keys {d d' : Dict} (h : layout d = layout d') : d.map Prod.fst = d'.map Prod.fst := by
  have := congrArg (List.map Prod.fst) h
  simpa [layout, Function.comp_def] using this

theorem lookup_layout {d d' : Dict} (h : layout d = layout d') (k : String) :
    (d.lookup k).map (fun t => (t.shape, t.bytes.length)) =
      (d'.lookup k).map fun t => (t.shape, t.bytes.length) := by
  have key : ∀ d : Dict, (d.lookup k).map (fun t => (t.shape, t.bytes.length)) = (layout d).lookup k := by
    intro d
    induction d with
    | nil => rfl
    | cons en d ih =>
      rcases en with ⟨n, t⟩
      simp only [layout, List.map_cons, List.lookup_cons]
      cases hk : k == n with
      | true => rfl
      | false => exact ih
  rw [key, key, h]

theorem lookup_poke (name : String) (bs : List Byte) (k : String) : ∀ d : Dict,
    (pokeTensor name bs d).lookup k = (d.lookup k).map fun t =>
      if k = name then { t with bytes := bs ++ t.bytes.drop bs.length } else t
  | [] => rfl
  | (n, t) :: d => by
    have ih := lookup_poke name bs k d
    simp only [pokeTensor, List.map_cons] at ih ⊢
    by_cases hk : k = n
    · subst hk
      by_cases hn : k = name
      · subst hn; simp
      · simp [hn]
    · have hk' : (k == n) = false := by simpa using hk
      by_cases hn : n = name
      · rw [if_pos hn, List.lookup_cons, List.lookup_cons, hk']; exact ih
      · rw [if_neg hn, List.lookup_cons, List.lookup_cons, hk']; exact ih

theorem layout_poke {name : String} {bs : List Byte} {d : Dict}
    (h : ∀ en ∈ d, en.1 = name → bs.length ≤ en.2.bytes.length) :
    layout (pokeTensor name bs d) = layout d := by
  unfold layout pokeTensor
  rw [List.map_map]
  apply List.map_congr_left
  intro en hen
  simp only [Function.comp]
  split
  · rename_i hn
    have := h en hen hn
    simp only [List.length_append, List.length_drop, Prod.mk.injEq, true_and]
    omega
  · rfl

theorem lookup_of_mem_nodup {d : Dict} (hn : (d.map Prod.fst).Nodup) {en : String × SavedTensor}
    (h : en ∈ d) : d.lookup en.1 = some en.2 := by
  induction d with
  | nil => simp at h
  | cons a d ih =>
    rcases a with ⟨n, t⟩
    simp only [List.map_cons, List.nodup_cons] at hn
    rcases List.mem_cons.1 h with rfl | h
    · simp
    · have hne : en.1 ≠ n := fun he => hn.1 (he ▸ List.mem_map_of_mem (f := Prod.fst) h)
      rw [List.lookup_cons, beq_false_of_ne hne]
      exact ih hn.2 h

theorem mem_of_lookup {d : Dict} {k : String} {t : SavedTensor} (h : d.lookup k = some t) :
    (k, t) ∈ d := by
  induction d with
  | nil => simp at h
  | cons a d ih =>
    rcases a with ⟨n, u⟩
    rw [List.lookup_cons] at h
    cases hk : k == n with
    | true =>
      rw [hk] at h
      simp only [Option.some.injEq] at h
      have : k = n := by simpa using hk
      rw [this, ← h]
      simp
    | false =>
      rw [hk] at h
      exact List.mem_cons_of_mem _ (ih h)

theorem lookup_key {d : Dict} {k : String} {t : SavedTensor} (h : d.lookup k = some t) :
    k ∈ d.map Prod.fst := List.mem_map.2 ⟨_, mem_of_lookup h, rfl⟩

/-! ### One entry of `load_state` -/

theorem onFile_eq {α : Type} {r : R α} {d : Dict} {s s' : IStream} {o : Out α} (h : r s = (o, s')) :
    onFile r ⟨d, s⟩ = (o, ⟨d, s'⟩) := by simp [onFile, h]

/-- What the loop body does on any stream. The dict's keys are distinct. -/
theorem loadEntry_cases {lim : Nat} (hl : lim < 2 ^ 63) {d : Dict} (hn : (d.map Prod.fst).Nodup)
    (hb : ∀ en ∈ d, en.2.bytes.length < 2 ^ 63) {s : IStream} (h : Inv s) :
    (∃ x s', loadEntry lim ⟨d, s⟩ = (.throw x, ⟨d, s'⟩) ∧ (∀ name shape t, ZPre (fmtString name ++ fmtInts shape) s.data →
        OkStr lim name → OkInts lim shape → d.lookup name = some t → t.shape ≠ shape)) ∨
    (∃ name t, d.lookup name = some t ∧ OkStr lim name ∧ OkInts lim t.shape ∧
      ZPre (fmtString name ++ fmtInts t.shape) s.data ∧
      loadEntry lim ⟨d, s⟩ = (.ok (),
        ⟨pokeTensor name ((s.data.drop (fmtString name ++ fmtInts t.shape).length).take t.bytes.length) d,
         adv ((fmtString name ++ fmtInts t.shape).length + t.bytes.length) s⟩)) := by
  unfold loadEntry
  rcases readString_cases hl h with ⟨name, h1, hz, hok⟩ | ⟨h1, h2⟩
  · rw [M.bind_ok (onFile_eq h1)]
    simp only [M.bind_ok (M.get_apply _)]
    cases hlk : d.lookup name with
    | none =>
      left
      refine ⟨.dw, _, rfl, ?_⟩
      intro name' shape t hz' hok' hoks hlk'
      have := fmtString_unique hl hok hok' hz (zpre_append.1 hz').1
      subst this
      rw [hlk] at hlk'
      simp at hlk'
    | some t =>
      simp only
      rcases readInts_cases hl (inv_adv h (fmtString name).length) with ⟨shape, h3, hz3, hok3⟩ | ⟨h3, h4⟩
      · rw [M.bind_ok (onFile_eq h3)]
        by_cases hsh : t.shape = shape
        · right
          subst hsh
          refine ⟨name, t, hlk, hok, hok3, zpre_append.2 ⟨hz, hz3⟩, ?_⟩
          have hch : ∀ s : LoadSt, (M.check (t.shape == t.shape) : M LoadSt Unit) s = (.ok (), s) := fun s => by
            rw [beq_self_eq_true]; rfl
          rw [M.bind_ok (hch _)]
          have hlt := hb _ (mem_of_lookup hlk)
          rw [M.bind_ok (onFile_eq (readBytes_eq hlt (inv_adv (inv_adv h _) _)))]
          simp only [M.modify_apply, adv_adv, List.length_append]
          rfl
        · left
          have hch : ∀ s : LoadSt, (M.check (t.shape == shape) : M LoadSt Unit) s = (.throw .dw, s) := fun s => by
            rw [beq_false_of_ne hsh]; rfl
          rw [M.bind_throw (hch _)]
          refine ⟨.dw, _, rfl, ?_⟩
          intro name' shape' t' hz' hok' hoks' hlk' hts
          have := fmtString_unique hl hok hok' hz (zpre_append.1 hz').1
          subst this
          have := fmtInts_unique hl hok3 hoks' hz3 (zpre_append.1 hz').2
          subst this
          rw [hlk] at hlk'
          simp only [Option.some.injEq] at hlk'
          exact hsh (hlk' ▸ hts)
      · left
        rw [M.bind_throw (onFile_eq h3)]
        refine ⟨_, _, rfl, ?_⟩
        intro name' shape' t' hz' hok' hoks' hlk' hts
        have := fmtString_unique hl hok hok' hz (zpre_append.1 hz').1
        subst this
        have := readInts_of_zpre hl (inv_adv h (fmtString name).length) hoks' (zpre_append.1 hz').2
        rw [h3] at this
        simp at this
  · left
    rw [M.bind_throw (onFile_eq h1)]
    refine ⟨_, _, rfl, ?_⟩
    intro name' shape' t' hz' hok' hoks' hlk' hts
    have := readString_of_zpre hl h hok' (zpre_append.1 hz').1
    rw [h1] at this
    simp at this

end DW.SerL
