import Verif.Lemmas.SerializationCut
/-!
# Saving and loading (C54, C55, C57–C60)
-/

set_option autoImplicit false

namespace DW.Props.SerP

open DW DW.Spec DW.SerL

variable {lim : Nat}

/-- The bytes `save_state` puts into a new file. -/
def stateFile (d : Dict) : List Byte := (saveState d []).2

/-- The bytes `save_cfg` puts into a new file. -/
def cfgFile (c : Config) : List Byte := (saveCfg c []).2

/-- `load_state(d, file)` for a file with these bytes. -/
def loadFrom (lim : Nat) (d : Dict) (bytes : List Byte) : Out Unit × LoadSt :=
  loadState lim ⟨d, ⟨bytes, false⟩⟩

/-! ## The file formats -/

/-- `save_state` never fails and writes exactly the documented format, after whatever is in the
file already. -/
theorem save_state_format (d : Dict) (f : List Byte) :
    saveState d f = (.ok (), f ++ fmtState d) := writes_state d f

theorem stateFile_eq (d : Dict) : stateFile d = fmtState d := by
  simp [stateFile, save_state_format]

/-- `save_cfg` writes exactly the documented format if all attributes are supported. -/
theorem save_cfg_format {c : Config} (h : ∀ o ∈ c.sortedOps, ∀ a ∈ o.attrs, OkAttr a.2)
    (f : List Byte) : saveCfg c f = (.ok (), f ++ fmtCfg c) := writes_cfg h f

theorem cfgFile_eq {c : Config} (h : OkCfg lim c) : cfgFile c = fmtCfg c := by
  simp [cfgFile, save_cfg_format fun o ho a ha => ((h.op o ho).attr a ha).2]

/-! ## C54 -/

theorem sameLayout_fits {d d' : Dict} (hn : (d.map Prod.fst).Nodup) (h : SameLayout d d') :
    ∀ en ∈ d, Fits d' en := by
  intro en hen
  unfold Fits
  rw [← h en.1, lookup_of_mem_nodup hn hen]
  rfl

theorem sameLayout_bytes {d d' : Dict} (hd : OkDict lim d) (hn : (d'.map Prod.fst).Nodup)
    (h : SameLayout d d') : ∀ en ∈ d', en.2.bytes.length < 2 ^ 63 := by
  intro en hen
  have h1 := h en.1
  rw [lookup_of_mem_nodup hn hen] at h1
  cases hl : d.lookup en.1 with
  | none => rw [hl] at h1; simp at h1
  | some t =>
    rw [hl] at h1
    simp only [Option.map_some, Option.some.injEq, Prod.mk.injEq] at h1
    have := hd.bytes _ (mem_of_lookup hl)
    simp only at this
    omega

/-- **C54.** Loading a saved state into a dict with the same keys and shapes (in any order, with any
contents) succeeds, leaves the stream right behind the state, and makes every tensor equal to the
saved one. The order of `d` is the order in which the saver's hash map iterates; that of `d'` the
loader's. -/
theorem state_round_trip (hl : lim < 2 ^ 63) {d d' : Dict} (hd : OkDict lim d)
    (hn : (d'.map Prod.fst).Nodup) (hs : SameLayout d d') (rest : List Byte) :
    ∃ d'', loadFrom lim d' (stateFile d ++ rest) = (.ok (), ⟨d'', ⟨rest, false⟩⟩) ∧
      d''.map Prod.fst = d'.map Prod.fst ∧ ∀ k, d''.lookup k = d.lookup k := by
  have hf := sameLayout_fits hd.nodup hs
  have hb := sameLayout_bytes hd hn hs
  refine ⟨pokes d d', ?_, layout_keys (layout_pokes hn hf), ?_⟩
  · rw [loadFrom, stateFile_eq, fmtState, List.append_assoc, loadState_header (by have := hd.count; omega)]
    have := loop_prefix hl (es := d) (i := 0) (n := 0) (d := d') (rest := rest) hn hb
      (by have := hd.count; omega) (fun en hen => ⟨hd.name en hen, hd.shape en hen, hf en hen⟩)
    rw [Nat.add_zero] at this
    rw [this]
    rfl
  · intro k
    rw [lookup_pokes hn hf hd.nodup]
    cases hk : d.lookup k with
    | some t => rfl
    | none =>
      have := hs k
      rw [hk] at this
      cases hk' : d'.lookup k with
      | none => rfl
      | some t => rw [hk'] at this; simp at this

/-- Two dicts in different orders. -/
def exD : Dict := [("fc.weight", ⟨[1, 2], [1, 2, 3, 4, 5, 6, 7, 8]⟩), ("fc.bias", ⟨[1], [9, 9, 9, 9]⟩)]
def exD' : Dict := [("fc.bias", ⟨[1], [0, 0, 0, 0]⟩), ("fc.weight", ⟨[1, 2], [0, 0, 0, 0, 0, 0, 0, 0]⟩)]

theorem exD_ok : OkDict 1000 exD where
  nodup := by decide
  name := by
    intro en hen
    simp only [exD, List.mem_cons, List.not_mem_nil, or_false] at hen
    rcases hen with rfl | rfl <;> exact ⟨by intro c hc; revert c; decide, by decide⟩
  shape := by
    intro en hen
    simp only [exD, List.mem_cons, List.not_mem_nil, or_false] at hen
    rcases hen with rfl | rfl <;> exact ⟨by intro v hv; unfold IsInt; revert v; decide, by decide⟩
  bytes := by decide
  count := by decide

theorem exD_same : SameLayout exD exD' := by
  intro k
  by_cases h1 : k = "fc.weight"
  · subst h1; decide
  · by_cases h2 : k = "fc.bias"
    · subst h2; decide
    · have e1 : (k == "fc.weight") = false := by simpa using h1
      have e2 : (k == "fc.bias") = false := by simpa using h2
      simp [exD, exD', List.lookup_cons, e1, e2]

example : (loadFrom 1000 exD' (stateFile exD)).2.dict =
    [("fc.bias", ⟨[1], [9, 9, 9, 9]⟩), ("fc.weight", ⟨[1, 2], [1, 2, 3, 4, 5, 6, 7, 8]⟩)] := by
  decide +kernel

/-! ## C55 -/

/-- **C55.** Loading a saved config returns an equal config and leaves the stream right behind it. -/
theorem cfg_round_trip (hl : lim < 2 ^ 63) {c : Config} (h : OkCfg lim c) (rest : List Byte) :
    loadCfg lim ⟨cfgFile c ++ rest, false⟩ = (.ok c, ⟨rest, false⟩) := by
  rw [cfgFile_eq h]
  exact reads_cfg hl h rest

/-- An unsupported attribute makes `save_cfg` throw. -/
theorem save_cfg_unsupported {c : Config} {o : OpInfo} (ho : o ∈ c.sortedOps) {a : String × AttrVal}
    (ha : a ∈ o.attrs) (hu : a.2 = .unsupported) (f : List Byte) :
    ∃ f', saveCfg c f = (.throw .dw, f') := by
  -- a list of writers with one that throws
  have hfor : ∀ {α : Type} (w : α → W) (l : List α), (∀ x ∈ l, ∀ f, (w x f).1 = .ok () ∨ (w x f).1 = .throw .dw) →
      (∃ x ∈ l, ∀ f, (w x f).1 = .throw .dw) → ∀ f, ∃ f', l.forM w f = (.throw .dw, f') := by
    intro α w l
    induction l with
    | nil => rintro - ⟨x, hx, -⟩; simp at hx
    | cons y l ih =>
      intro hall hex f
      simp only [List.forM_eq_forM, List.forM_cons] at ih ⊢
      rcases hy : w y f with ⟨r, f1⟩
      rcases hall y (by simp) f with h1 | h1
      · rw [hy] at h1
        simp only at h1
        subst h1
        rw [M.bind_ok hy]
        obtain ⟨x, hx, hxt⟩ := hex
        rcases List.mem_cons.1 hx with rfl | hx
        · have := hxt f
          rw [hy] at this
          simp at this
        · exact ih (fun z hz => hall z (by simp [hz])) ⟨x, hx, hxt⟩ f1
      · rw [hy] at h1
        simp only at h1
        subst h1
        rw [M.bind_throw hy]
        exact ⟨f1, rfl⟩
  have hattr : ∀ v f, (writeAttribute v f).1 = .ok () ∨ (writeAttribute v f).1 = .throw .dw := by
    intro v f
    cases v <;> first | exact .inl rfl | exact .inr rfl
  have hone : ∀ (b : String × AttrVal) f, ((do writeString b.1; writeAttribute b.2) : W) f =
      writeAttribute b.2 (f ++ fmtString b.1) := fun b f => M.bind_ok (writes_string b.1 f)
  have hop : ∀ (o : OpInfo) f, ∃ f1, saveOp o f = writeAttributes o.attrs f1 := by
    intro o f
    unfold saveOp
    rw [M.bind_ok (writes_string _ _), M.bind_ok (writes_string _ _), M.bind_ok (writes_ints _ _),
      M.bind_ok (writes_ints _ _)]
    exact ⟨_, rfl⟩
  have hattrs : ∀ (l : Attrs), (∃ b ∈ l, b.2 = .unsupported) → ∀ f, ∃ f', writeAttributes l f = (.throw .dw, f') := by
    intro l hex f
    unfold writeAttributes
    rw [M.bind_ok (writes_size _ _)]
    apply hfor
    · intro x _ f
      rw [hone]; exact hattr _ _
    · obtain ⟨b, hb, hbu⟩ := hex
      exact ⟨b, hb, fun f => by rw [hone, hbu]; rfl⟩
  have hattrs' : ∀ (l : Attrs) f, (writeAttributes l f).1 = .ok () ∨ (writeAttributes l f).1 = .throw .dw := by
    intro l f
    by_cases hex : ∃ b ∈ l, b.2 = .unsupported
    · obtain ⟨f', hf⟩ := hattrs l hex f
      right; rw [hf]
    · left
      have : ∀ b ∈ l, ∀ f, ∃ f', ((do writeString b.1; writeAttribute b.2) : W) f = (.ok (), f') := by
        intro b hb f
        rw [hone]
        rcases hv : b.2 with v | v | ⟨v, w⟩ | ⟨v, w⟩ | _
        · exact ⟨_, rfl⟩
        · exact ⟨_, rfl⟩
        · exact ⟨_, rfl⟩
        · exact ⟨_, rfl⟩
        · exact absurd ⟨b, hb, hv⟩ hex
      unfold writeAttributes
      rw [M.bind_ok (writes_size _ _)]
      generalize f ++ fmtSize l.length = f0
      clear hex
      induction l generalizing f0 with
      | nil => rfl
      | cons b l ih =>
        simp only [List.forM_eq_forM, List.forM_cons] at ih ⊢
        obtain ⟨f1, hf1⟩ := this b (by simp) f0
        rw [M.bind_ok hf1]
        exact ih (fun x hx => this x (by simp [hx])) f1
  unfold saveCfg
  rw [M.bind_ok (writes_int _ _), M.bind_ok (writes_ints _ _), M.bind_ok (writes_ints _ _),
    M.bind_ok (writes_size _ _),
    M.bind_ok (writes_forM (f := savePh) (g := fmtPh) (fun p _ => writes_seq (writes_int _) (writes_ints _)) _),
    M.bind_ok (writes_size _ _)]
  apply hfor
  · intro x _ f
    obtain ⟨f1, hf1⟩ := hop x f
    rw [hf1]; exact hattrs' _ _
  · refine ⟨o, ho, fun f => ?_⟩
    obtain ⟨f1, hf1⟩ := hop o f
    obtain ⟨f', hf'⟩ := hattrs o.attrs ⟨a, ha, hu⟩ f1
    rw [hf1, hf']

/-- A config with every supported attribute kind. -/
def exC : Config where
  inputIds := [0]
  outputIds := [2]
  phMap := [(2, ([4, 10], 2)), (0, ([4, 3, 8, 8], 0)), (1, ([4, 8, 4, 4], 1))]
  sortedOps := [
    ⟨"conv", "Convolution", [("out_channels", .int 8), ("kernel", .ints 3 3), ("padding", .ints 1 (-1)),
      ("stride", .ints 2 2)], [0], [1]⟩,
    ⟨"elu1", "ELU", [("alpha", .float 0x3f800000)], [1], [2]⟩]

theorem exC_ok : OkCfg 1000 exC where
  inputs := ⟨by intro v hv; unfold IsInt; revert v; decide, by decide⟩
  outputs := ⟨by intro v hv; unfold IsInt; revert v; decide, by decide⟩
  keys := by decide
  ph := by
    intro p hp
    simp only [exC, List.mem_cons, List.not_mem_nil, or_false] at hp
    rcases hp with rfl | rfl | rfl <;>
      exact ⟨⟨by decide, by decide⟩, ⟨by intro v hv; unfold IsInt; revert v; decide, by decide⟩, rfl⟩
  phCount := by decide
  op := by
    intro o ho
    simp only [exC, List.mem_cons, List.not_mem_nil, or_false] at ho
    rcases ho with rfl | rfl
    · refine ⟨⟨by intro c hc; revert c; decide, by decide⟩, ⟨by intro c hc; revert c; decide, by decide⟩,
        ⟨by intro v hv; unfold IsInt; revert v; decide, by decide⟩,
        ⟨by intro v hv; unfold IsInt; revert v; decide, by decide⟩, by decide, ?_, by decide⟩
      intro a ha
      simp only [List.mem_cons, List.not_mem_nil, or_false] at ha
      rcases ha with rfl | rfl | rfl | rfl <;>
        refine ⟨⟨by intro c hc; revert c; decide, by decide⟩, ?_⟩ <;> simp [OkAttr, IsInt]
    · refine ⟨⟨by intro c hc; revert c; decide, by decide⟩, ⟨by intro c hc; revert c; decide, by decide⟩,
        ⟨by intro v hv; unfold IsInt; revert v; decide, by decide⟩,
        ⟨by intro v hv; unfold IsInt; revert v; decide, by decide⟩, by decide, ?_, by decide⟩
      intro a ha
      simp only [List.mem_cons, List.not_mem_nil, or_false] at ha
      rcases ha with rfl
      exact ⟨⟨by intro c hc; revert c; decide, by decide⟩, trivial⟩
  opCount := by decide

/-! ## C57 -/

/-- **C57, state reader.** `load_state` on a config file throws and changes no tensor. -/
theorem load_state_rejects_config {c : Config} (h : OkCfg lim c) (d : Dict) (rest : List Byte) :
    ∃ s, loadFrom lim d (cfgFile c ++ rest) = (.throw .dw, ⟨d, s⟩) := by
  rw [loadFrom, cfgFile_eq h, loadState_eq (by simp [SerL.Inv]), if_neg]
  · exact ⟨_, rfl⟩
  · have : padTake 4 (fmtCfg c ++ rest) = intBytes 1 := by
      unfold fmtCfg
      simp only [List.append_assoc]
      have h1 := padTake_of_prefix (p := intBytes 1) (rest := fmtInts c.inputIds ++ (fmtInts c.outputIds ++
        (fmtSize c.phMap.length ++ (c.phMap.flatMap fmtPh ++ (fmtSize c.sortedOps.length ++
          (c.sortedOps.flatMap fmtOp ++ rest))))))
      rwa [intBytes_length] at h1
    simp only [this]
    decide

/-- **C57, config reader.** `load_cfg` on a state file throws. -/
theorem load_cfg_rejects_state (d : Dict) (rest : List Byte) :
    ∃ s, loadCfg lim ⟨stateFile d ++ rest, false⟩ = (.throw .dw, s) := by
  rw [stateFile_eq]
  unfold loadCfg fmtState
  simp only [List.append_assoc]
  rw [M.bind_ok (reads_int (v := 0) ⟨by decide, by decide⟩ _)]
  have hk : ((0 : Int) == kindConfig) = false := by decide
  rw [hk, M.bind_throw (M.check_false_apply _)]
  exact ⟨_, rfl⟩

/-- Both readers reject every file whose first 4 bytes are neither kind. -/
theorem other_kind_rejected (data : List Byte) (d : Dict) :
    (bytesInt (padTake 4 data) ≠ 0 → ∃ s, loadFrom lim d data = (.throw .dw, ⟨d, s⟩)) ∧
    (bytesInt (padTake 4 data) ≠ 1 → ∃ s, loadCfg lim ⟨data, false⟩ = (.throw .dw, s)) := by
  constructor
  · intro h
    rw [loadFrom, loadState_eq (by simp [SerL.Inv]), if_neg h]
    exact ⟨_, rfl⟩
  · intro h
    unfold loadCfg
    rw [M.bind_ok (readInt_eq (by simp [SerL.Inv]))]
    have : (bytesInt (padTake 4 data) == kindConfig) = false := by simpa [kindConfig] using h
    simp only [this]
    rw [M.bind_throw (M.check_false_apply _)]
    exact ⟨_, rfl⟩

/-- **C57, one file with both.** In a file written by `save` (config, then state) the state is read
from exactly where the config ends. -/
theorem config_then_state (hl : lim < 2 ^ 63) {c : Config} (hc : OkCfg lim c) {d d' : Dict}
    (hd : OkDict lim d) (hn : (d'.map Prod.fst).Nodup) (hs : SameLayout d d') :
    ∃ d'' s, loadCfg lim ⟨(saveState d (saveCfg c []).2).2, false⟩ = (.ok c, s) ∧
      loadState lim ⟨d', s⟩ = (.ok (), ⟨d'', ⟨[], false⟩⟩) ∧ ∀ k, d''.lookup k = d.lookup k := by
  obtain ⟨d'', h1, -, h2⟩ := state_round_trip hl hd hn hs []
  refine ⟨d'', ⟨stateFile d, false⟩, ?_, ?_, h2⟩
  · rw [save_state_format, ← stateFile_eq]
    exact cfg_round_trip hl hc _
  · simpa [loadFrom] using h1

/-! ## C58 -/

/-- **C58 (proved part).** Whatever the bytes are: keys, shapes and sizes of the dict never change;
the outcome is success or an exception, provided the dict has no empty key and the file is shorter
than 16·(2³¹−1) bytes; on success the file consisted of entries each naming an existing key with
the same shape, and the dict holds exactly those entries' contents. A stream that has not failed
has been read entry by entry up to `r.2.file.data`. Missing: dicts with an empty key and files of
32 GiB and more, where the loop counter overflows (`load_state_any_refuted`). -/
theorem load_state_any_partial (hl : lim < 2 ^ 63) {d : Dict} (hn : (d.map Prod.fst).Nodup)
    (hb : ∀ en ∈ d, en.2.bytes.length < 2 ^ 63) (data : List Byte) :
    let r := loadFrom lim d data
    r.2.dict.map (fun en => (en.1, en.2.shape, en.2.bytes.length)) =
      d.map (fun en => (en.1, en.2.shape, en.2.bytes.length)) ∧
    ("" ∉ d.map Prod.fst → data.length < 16 * (2 ^ 31 - 1) → r.1.isUb = false) ∧
    (r.1 = .ok () → ∃ es : Dict, r.2.dict = pokes es d ∧
      (∀ en ∈ es, ∃ t, d.lookup en.1 = some t ∧ t.shape = en.2.shape ∧
        en.2.bytes.length ≤ t.bytes.length) ∧
      (r.2.file.failed = false → data = fmtState es ++ r.2.file.data ∧
        ∀ en ∈ es, ∃ t, d.lookup en.1 = some t ∧ t.bytes.length = en.2.bytes.length)) := by
  intro r
  have hr : r = loadState lim ⟨d, ⟨data, false⟩⟩ := rfl
  rw [loadState_eq (by simp [SerL.Inv])] at hr
  by_cases hk : bytesInt (padTake 4 data) = 0
  · rw [if_pos hk] at hr
    simp only at hr
    have hinv : SerL.Inv (adv 12 ⟨data, false⟩) := inv_adv (by simp [SerL.Inv]) _
    obtain ⟨h1, h2, h3⟩ := loop_any hl (leNat (padTake 8 (data.drop 4))) 0 hn hb hinv
    rw [← hr] at h1 h2 h3
    refine ⟨h1, fun he hlt => h2 he ?_, fun hok => ?_⟩
    · right; simp only [adv, List.length_drop]; omega
    · obtain ⟨es, e1, e2, e3, e4⟩ := h3 hok
      refine ⟨es, e2, fun en hen => (e3 en hen).2, fun hnf => ?_⟩
      obtain ⟨g1, g2⟩ := e4 hnf
      refine ⟨?_, fun en hen => ?_⟩
      · -- the header was there completely
        have hlen : 12 ≤ data.length := by
          by_contra hc
          have hf : (adv 12 ⟨data, false⟩).failed = true := by simp [adv]; omega
          have hd12 : (adv 12 ⟨data, false⟩).data = [] := inv_adv (by simp [SerL.Inv]) _ hf
          cases es with
          | nil =>
            simp only [List.length_nil] at e1
            rw [← e1] at hr
            rw [hr] at hnf
            simp only [intLoop, M.pure_apply] at hnf
            rw [hf] at hnf
            simp at hnf
          | cons en es =>
            rw [hd12] at g1
            have := congrArg List.length g1
            simp [fmtEntry_eq] at this
            omega
        have hz1 := zpre_length_le (zpre_padTake 4 data) (by simp; omega)
        have hz2 := zpre_length_le (zpre_padTake 8 (data.drop 4)) (by simp; omega)
        rw [padTake_length] at hz1 hz2
        have e5 : padTake 4 data = intBytes 0 := by
          rw [← hk]; exact ((intBytes_bytesInt (by simp)).1).symm
        have e6 : padTake 8 (data.drop 4) = fmtSize es.length := by
          rw [e1]; exact (fmtSize_leNat (by simp)).symm
        rw [e5] at hz1
        rw [e6, List.drop_drop] at hz2
        simp only [adv] at g1
        unfold fmtState
        rw [List.append_assoc, List.append_assoc, ← g1, ← hz2]
        exact hz1
      · obtain ⟨t, t1, t2, t3⟩ := fits_iff.1 (g2 en hen)
        exact ⟨t, t1, t3⟩
  · rw [if_neg hk] at hr
    rw [hr]
    exact ⟨rfl, fun _ _ => rfl, fun hc => by simp at hc⟩

/-- The full claim about undefined behaviour. -/
def LoadStateAlwaysDefined : Prop :=
  ∀ (lim : Nat) (d : Dict) (data : List Byte), lim < 2 ^ 63 → (d.map Prod.fst).Nodup →
    (∀ en ∈ d, en.2.bytes.length < 2 ^ 63) → (loadFrom lim d data).1.isUb = false

/-- On an exhausted stream an entry for the key `""` with an empty shape is accepted again and
again. -/
theorem loop_overflow {d : Dict} {t : SavedTensor} (hl : lim < 2 ^ 63) (hn : (d.map Prod.fst).Nodup)
    (hb : ∀ en ∈ d, en.2.bytes.length < 2 ^ 63) (hd : d.lookup "" = some t) (ht : t.shape = [])
    {s : IStream} (hs : SerL.Inv s) (h0 : s.data = []) :
    ∀ (k i n : Nat), i + k + 1 = 2 ^ 31 → k < n →
      (intLoop (loadEntry lim) i n ⟨d, s⟩).1 = .ub .overflow := by
  have hz : ∀ v : List Byte, v = List.replicate v.length 0 → ZPre v [] := by
    intro v hv i hi
    rw [hv] at hi ⊢
    rw [List.getElem?_replicate, if_pos (by simpa using hi)]
    rfl
  have hbody : ∀ s : IStream, SerL.Inv s → s.data = [] → ∃ s', loadEntry lim ⟨d, s⟩ = (.ok (), ⟨d, s'⟩) ∧
      SerL.Inv s' ∧ s'.data = [] := by
    intro s hs h0
    rcases loadEntry_cases hl hn hb hs with ⟨x, s', h1, hno⟩ | ⟨name, t', h4, h5, h6, h7, h8⟩
    · exfalso
      refine hno "" [] t ?_ ⟨by intro c hc; simp at hc, by simp⟩ ⟨by simp, by simp⟩ hd ht
      rw [h0]
      exact hz _ (by decide)
    · have hp : pokeTensor name ((s.data.drop (fmtString name ++ fmtInts t'.shape).length).take t'.bytes.length) d = d := by
        rw [h0]
        unfold pokeTensor
        conv_rhs => rw [← List.map_id d]
        apply List.map_congr_left
        intro e _
        simp
      rw [hp] at h8
      exact ⟨_, h8, inv_adv hs _, by simp [adv, h0]⟩
  intro k
  induction k generalizing s with
  | zero =>
    intro i n hi hn'
    obtain ⟨n, rfl⟩ : ∃ m, n = m + 1 := ⟨n - 1, by omega⟩
    obtain ⟨s', h1, -⟩ := hbody s hs h0
    unfold intLoop
    rw [M.bind_ok h1, if_pos (by omega)]
    rfl
  | succ k ih =>
    intro i n hi hn'
    obtain ⟨n, rfl⟩ : ∃ m, n = m + 1 := ⟨n - 1, by omega⟩
    obtain ⟨s', h1, h2, h3⟩ := hbody s hs h0
    unfold intLoop
    rw [M.bind_ok h1, if_neg (by omega)]
    exact ih h2 h3 (i + 1) n (by omega) (by omega)

/-- **C58 is violated by the code in a corner**: with an entry under the empty key (for example
`state[""] = Tensor()`) a 12-byte file announcing 2³¹ entries makes the `int` loop counter
overflow. -/
theorem load_state_any_refuted : ¬ LoadStateAlwaysDefined := by
  intro h
  have h1 := h 0 [("", ⟨[], []⟩)] (intBytes 0 ++ fmtSize (2 ^ 31) ++ []) (by decide) (by simp) (by simp)
  rw [loadFrom, loadState_header (by decide)] at h1
  have := loop_overflow (lim := 0) (d := [("", ⟨[], []⟩)]) (t := ⟨[], []⟩) (by decide) (by simp)
    (by simp) rfl rfl (s := ⟨[], false⟩) (by simp [SerL.Inv]) rfl (2 ^ 31 - 1) 0 (2 ^ 31) (by decide) (by decide)
  rw [this] at h1
  simp [Out.isUb] at h1

/-! ## C59 -/

/-- The file up to (not including) the elements of the last tensor. -/
def beforeLastData (pre : Dict) (last : String × SavedTensor) : List Byte :=
  intBytes 0 ++ fmtSize (pre.length + 1) ++ pre.flatMap fmtEntry ++
    (fmtString last.1 ++ fmtInts last.2.shape)

/-- The cuts that go unnoticed: the number of entries reads as 0, or the name of the last entry is
complete and every byte missing before its data is a zero. -/
def Silent (d : Dict) (n : Nat) : Prop :=
  (n < 12 ∧ d.length % 256 ^ (n - 4) = 0) ∨
  ∃ pre last, d = pre ++ [last] ∧
    (beforeLastData pre last).length ≤ n + (fmtInts last.2.shape).length ∧
    ∀ b ∈ (beforeLastData pre last).drop n, b = 0

/-- What a cut after `n` bytes leaves in the dict when it goes unnoticed. -/
def silentResult (d d' : Dict) (n : Nat) (r : Dict) : Prop :=
  (n < 12 ∧ r = d') ∨
  ∃ pre last, d = pre ++ [last] ∧ 12 ≤ n ∧
    r = pokeTensor last.1 (last.2.bytes.take (n - (beforeLastData pre last).length)) (pokes pre d')

theorem header_cut {d : Dict} {n : Nat} (hn : n < 12) (hc : d.length < 2 ^ 31) :
    bytesInt (padTake 4 ((fmtState d).take n)) = 0 ∧
    leNat (padTake 8 (((fmtState d).take n).drop 4)) = d.length % 256 ^ (n - 4) ∧
    (adv 12 ⟨(fmtState d).take n, false⟩).data = [] := by
  have hpre : (fmtState d).take n = (intBytes 0 ++ fmtSize d.length).take n := by
    unfold fmtState
    rw [List.take_append_of_le_length (by simp; omega)]
  refine ⟨?_, ?_, ?_⟩
  · have : padTake 4 ((fmtState d).take n) = List.replicate 4 0 := by
      have h1 := zpre_padTake 4 ((fmtState d).take n)
      refine zpre_unique h1 ?_ (by simp)
      intro i hi
      simp only [List.length_replicate] at hi
      rw [List.getElem?_replicate, if_pos hi, hpre]
      by_cases hin : i < n
      · rw [List.getElem?_take_of_lt hin, List.getElem?_append_left (by simpa using hi), intBytes_zero,
          List.getElem?_replicate, if_pos hi]
        rfl
      · rw [List.getElem?_eq_none (l := List.take _ _) (by simp; omega)]
        rfl
    rw [this, bytesInt_zeros]
  · rw [leNat_padTake, hpre, List.drop_take, List.drop_left' (intBytes_length 0), fmtSize, take_leBytes,
      take_leBytes, leNat_leBytes]
    congr 2
    omega
  · simp only [adv]
    apply List.drop_eq_nil_of_le
    simp only [List.length_take]
    omega

/-- **C59, what happens at every crash point.** Let a state file be cut after `n` bytes, short of
its end, and loaded into a dict of the same layout. Then `load_state` throws unless the cut is one
of the `Silent` ones; in that case it returns normally, having loaded only part of the data. (Keys
are non-empty and contain no NUL, as all keys of a model's `state()` built from C strings.) -/
theorem truncation_exact (hl : lim < 2 ^ 63) {d d' : Dict} (hd : OkDict lim d)
    (hn : (d'.map Prod.fst).Nodup) (hs : SameLayout d d') (hnn : NoNul d') {n : Nat}
    (hcut : n < (stateFile d).length) :
    (Silent d n ∧ ∃ s, loadFrom lim d' ((stateFile d).take n) = (.ok (), s) ∧ silentResult d d' n s.dict) ∨
    (¬ Silent d n ∧ ∃ x s, loadFrom lim d' ((stateFile d).take n) = (.throw x, s)) := by
  rw [stateFile_eq] at *
  have hf := sameLayout_fits hd.nodup hs
  have hb := sameLayout_bytes hd hn hs
  have he : "" ∉ d'.map Prod.fst := fun h => (hnn "" h).1 rfl
  have hlen12 : ∀ pre last, 12 ≤ (beforeLastData pre last).length - (fmtInts last.2.shape).length := by
    intro pre last
    simp only [beforeLastData, List.length_append, intBytes_length, fmtSize_length]
    omega
  by_cases h12 : n < 12
  · -- the cut is in the header
    obtain ⟨h1, h2, h3⟩ := header_cut h12 hd.count
    have hld : loadFrom lim d' ((fmtState d).take n) =
        intLoop (loadEntry lim) 0 (d.length % 256 ^ (n - 4)) ⟨d', adv 12 ⟨(fmtState d).take n, false⟩⟩ := by
      rw [loadFrom, loadState_eq (by simp [SerL.Inv]), if_pos h1, h2]
    rw [hld]
    by_cases hz : d.length % 256 ^ (n - 4) = 0
    · left
      rw [hz]
      exact ⟨.inl ⟨h12, hz⟩, _, rfl, .inl ⟨h12, rfl⟩⟩
    · right
      refine ⟨?_, ?_⟩
      · rintro (⟨-, h⟩ | ⟨pre, last, -, h, -⟩)
        · exact hz h
        · have := hlen12 pre last
          omega
      · obtain ⟨k, hk⟩ : ∃ k, d.length % 256 ^ (n - 4) = k + 1 := ⟨_, (Nat.succ_pred_eq_of_ne_zero hz).symm⟩
        rw [hk]
        unfold intLoop
        rw [M.bind_throw (loadEntry_exhausted hl he (inv_adv (by simp [SerL.Inv]) _) h3)]
        exact ⟨_, _, rfl⟩
  · -- the cut is in an entry
    have hhead : (intBytes 0 ++ fmtSize d.length).length = 12 := by simp
    have hfs : fmtState d = (intBytes 0 ++ fmtSize d.length) ++ d.flatMap fmtEntry := rfl
    have hcut' : n - 12 < (d.flatMap fmtEntry).length := by
      rw [hfs, List.length_append, hhead] at hcut
      omega
    obtain ⟨pre, en, post, m', hdp, hm, hm', htake⟩ := cut_split hcut'
    have htk : (fmtState d).take n = intBytes 0 ++ fmtSize d.length ++
        (pre.flatMap fmtEntry ++ (fmtEntry en).take m') := by
      rw [hfs, List.take_append, hhead, List.take_of_length_le (by omega), htake]
    have hcount := hd.count
    have hdl : d.length = pre.length + (post.length + 1) := by rw [hdp]; simp
    have hen : en ∈ d := by rw [hdp]; simp
    have hpre : ∀ x ∈ pre, OkStr lim x.1 ∧ OkInts lim x.2.shape ∧ Fits d' x := fun x hx =>
      have : x ∈ d := by rw [hdp]; simp [hx]
      ⟨hd.name x this, hd.shape x this, hf x this⟩
    have hlay : layout (pokes pre d') = layout d' := layout_pokes hn fun x hx => (hpre x hx).2.2
    have hld : loadFrom lim d' ((fmtState d).take n) =
        intLoop (loadEntry lim) pre.length (post.length + 1)
          ⟨pokes pre d', ⟨(fmtEntry en).take m', false⟩⟩ := by
      rw [loadFrom, htk, loadState_header (by omega), hdl,
        loop_prefix hl hn hb (by omega) hpre, Nat.zero_add]
    rw [hld]
    have hnn' : NoNul (pokes pre d') := by
      intro k hk
      rw [layout_keys hlay] at hk
      exact hnn k hk
    have hcutE := loadEntry_cut hl (nodup_of_layout hlay hn) (bytes_of_layout hlay hb) hnn'
      (hd.name en hen) (hd.shape en hen) (fits_of_layout hlay (hf en hen)) hm'
    simp only at hcutE
    -- relate the cut to `Silent`
    have hsil : Silent d n ↔ post = [] ∧ (fmtString en.1).length ≤ m' ∧
        ∀ b ∈ (fmtString en.1 ++ fmtInts en.2.shape).drop m', b = 0 := by
      have hbl : (beforeLastData pre en).length =
          12 + (pre.flatMap fmtEntry).length + (fmtString en.1 ++ fmtInts en.2.shape).length := by
        simp only [beforeLastData, List.length_append, intBytes_length, fmtSize_length]
      have hdrop : (beforeLastData pre en).drop n = (fmtString en.1 ++ fmtInts en.2.shape).drop m' := by
        unfold beforeLastData
        rw [List.drop_append, List.drop_eq_nil_of_le, List.nil_append]
        · congr 1
          simp only [List.length_append, intBytes_length, fmtSize_length]
          omega
        · simp only [List.length_append, intBytes_length, fmtSize_length]
          omega
      constructor
      · rintro (⟨h, -⟩ | ⟨pre2, last2, hd2, h1, h2⟩)
        · omega
        · have hpost : post = [] := by
            rcases List.eq_nil_or_concat post with h | ⟨p3, l3, h3⟩
            · exact h
            · exfalso
              rw [hdp, h3, List.concat_eq_append, ← List.cons_append, ← List.append_assoc] at hd2
              obtain ⟨h4, h5⟩ := List.append_inj' hd2 rfl
              have h6 : (pre2.flatMap fmtEntry).length = (pre.flatMap fmtEntry).length +
                  (fmtEntry en).length + (p3.flatMap fmtEntry).length := by
                rw [← h4]
                simp only [List.flatMap_append, List.flatMap_cons, List.length_append]
                omega
              simp only [beforeLastData, List.length_append, intBytes_length, fmtSize_length] at h1
              omega
          subst hpost
          rw [hdp] at hd2
          obtain ⟨h4, h5⟩ := List.append_inj' hd2 rfl
          simp only [List.cons.injEq, and_true] at h5
          subst h4 h5
          refine ⟨rfl, ?_, ?_⟩
          · rw [hbl, List.length_append] at h1
            omega
          · rwa [hdrop] at h2
      · rintro ⟨rfl, h1, h2⟩
        refine .inr ⟨pre, en, hdp, ?_, by rw [hdrop]; exact h2⟩
        rw [hbl, List.length_append]
        omega
    rw [hsil]
    unfold intLoop
    rcases hcutE with ⟨h1, h2, s', h3, h4, h5⟩ | ⟨h1, x, s', h3⟩
    · rw [M.bind_ok h3, if_neg (by omega)]
      cases post with
      | nil =>
        left
        refine ⟨⟨rfl, h1, h2⟩, _, rfl, .inr ⟨pre, en, hdp, by omega, ?_⟩⟩
        show pokeTensor en.1 _ (pokes pre d') = _
        congr 2
        simp only [beforeLastData, List.length_append, intBytes_length, fmtSize_length]
        omega
      | cons p post =>
        right
        refine ⟨by simp, ?_⟩
        have hne : "" ∉ (pokeTensor en.1 (en.2.bytes.take (m' - (fmtString en.1 ++ fmtInts en.2.shape).length))
            (pokes pre d')).map Prod.fst := by
          have : (pokeTensor en.1 (en.2.bytes.take (m' - (fmtString en.1 ++ fmtInts en.2.shape).length))
            (pokes pre d')).map Prod.fst = (pokes pre d').map Prod.fst := by
            unfold pokeTensor
            rw [List.map_map]
            apply List.map_congr_left
            intro e _
            simp only [Function.comp]
            split <;> rfl
          rw [this, layout_keys hlay]
          exact he
        rw [List.length_cons]
        unfold intLoop
        rw [M.bind_throw (loadEntry_exhausted hl hne h4 h5)]
        exact ⟨_, _, rfl⟩
    · right
      rw [M.bind_throw h3]
      exact ⟨fun h => h1 h.2, x, _, rfl⟩

/-- The full claim of C59. -/
def TruncationDetected : Prop :=
  ∀ (lim : Nat) (d d' : Dict) (n : Nat), lim < 2 ^ 63 → OkDict lim d → (d'.map Prod.fst).Nodup →
    SameLayout d d' → NoNul d' → n < (stateFile d).length →
    ∃ x s, loadFrom lim d' ((stateFile d).take n) = (.throw x, s)

/-- **C59 is violated by the code** for every state: an empty file, or one cut in the first four
bytes, is accepted and loads nothing. -/
theorem truncation_refuted_empty (hl : lim < 2 ^ 63) {d d' : Dict} (hd : OkDict lim d)
    (hn : (d'.map Prod.fst).Nodup) (hs : SameLayout d d') (hnn : NoNul d') {n : Nat} (h4 : n ≤ 4) :
    ∃ s, loadFrom lim d' ((stateFile d).take n) = (.ok (), s) ∧ s.dict = d' := by
  have hcut : n < (stateFile d).length := by
    rw [stateFile_eq]; simp [fmtState]; omega
  have hsil : Silent d n := .inl ⟨by omega, by rw [show n - 4 = 0 by omega]; simp [Nat.mod_one]⟩
  rcases truncation_exact hl hd hn hs hnn hcut with ⟨-, s, h1, h2⟩ | ⟨h1, -⟩
  · refine ⟨s, h1, ?_⟩
    rcases h2 with ⟨-, h⟩ | ⟨_, _, _, h, _⟩
    · exact h
    · omega
  · exact absurd hsil h1

/-- … and so is every cut inside the elements of the last tensor: the rest of that tensor keeps its
old contents and no error is reported. -/
theorem truncation_refuted_data (hl : lim < 2 ^ 63) {pre : Dict} {last : String × SavedTensor} {d' : Dict}
    (hd : OkDict lim (pre ++ [last])) (hn : (d'.map Prod.fst).Nodup)
    (hs : SameLayout (pre ++ [last]) d') (hnn : NoNul d') {k : Nat} (hk : k < last.2.bytes.length) :
    ∃ s, loadFrom lim d' ((stateFile (pre ++ [last])).take ((beforeLastData pre last).length + k)) = (.ok (), s) ∧
      s.dict = pokeTensor last.1 (last.2.bytes.take k) (pokes pre d') := by
  have hfile : stateFile (pre ++ [last]) = beforeLastData pre last ++ last.2.bytes := by
    rw [stateFile_eq]
    simp [fmtState, beforeLastData, fmtEntry_eq]
  have hcut : (beforeLastData pre last).length + k < (stateFile (pre ++ [last])).length := by
    rw [hfile, List.length_append]; omega
  have hsil : Silent (pre ++ [last]) ((beforeLastData pre last).length + k) := by
    refine .inr ⟨pre, last, rfl, by omega, ?_⟩
    rw [List.drop_eq_nil_of_le (by omega)]
    simp
  rcases truncation_exact hl hd hn hs hnn hcut with ⟨-, s, h1, h2⟩ | ⟨h1, -⟩
  · refine ⟨s, h1, ?_⟩
    have h12 : 12 ≤ (beforeLastData pre last).length := by
      simp only [beforeLastData, List.length_append, intBytes_length, fmtSize_length]; omega
    rcases h2 with ⟨h, -⟩ | ⟨pre', last', h3, -, h⟩
    · omega
    · obtain ⟨h4, h5⟩ := List.append_inj' h3 rfl
      simp only [List.cons.injEq, and_true] at h5
      subst h4 h5
      rw [h, Nat.add_sub_cancel_left]
  · exact absurd hsil h1

theorem exD_noNul : NoNul exD' := by
  intro k hk
  simp only [exD', List.map_cons, List.map_nil, List.mem_cons, List.not_mem_nil, or_false] at hk
  rcases hk with rfl | rfl <;> exact ⟨by decide, by decide⟩

theorem truncation_refuted : ¬ TruncationDetected := by
  intro h
  obtain ⟨x, s, h1⟩ := h 1000 exD exD' 0 (by decide) exD_ok (by decide) exD_same exD_noNul
    (by decide +kernel)
  obtain ⟨s', h2, -⟩ := truncation_refuted_empty (lim := 1000) (by decide) exD_ok (by decide)
    exD_same exD_noNul (n := 0) (by decide)
  rw [h1] at h2
  simp at h2

/-- **C59 (proved part).** For states of 1 to 255 entries a cut is detected if it falls after the
fifth byte and before the end of the last entry's name, or before the last non-zero byte of the
last entry's shape. Missing: the `Silent` cuts, which the code accepts. -/
theorem truncation_detected_partial (hl : lim < 2 ^ 63) {pre : Dict} {last : String × SavedTensor} {d' : Dict}
    (hd : OkDict lim (pre ++ [last])) (hcount : pre.length + 1 < 256) (hn : (d'.map Prod.fst).Nodup)
    (hs : SameLayout (pre ++ [last]) d') (hnn : NoNul d') {n : Nat} (h5 : 5 ≤ n)
    (hcut : n + (fmtInts last.2.shape).length < (beforeLastData pre last).length ∨
      ∃ b ∈ (beforeLastData pre last).drop n, b ≠ 0) :
    ∃ x s, loadFrom lim d' ((stateFile (pre ++ [last])).take n) = (.throw x, s) := by
  have hfile : stateFile (pre ++ [last]) = beforeLastData pre last ++ last.2.bytes := by
    rw [stateFile_eq]
    simp [fmtState, beforeLastData, fmtEntry_eq]
  have hlt : n < (stateFile (pre ++ [last])).length := by
    rw [hfile, List.length_append]
    rcases hcut with h | ⟨b, hb, -⟩
    · omega
    · have := List.length_pos_of_mem hb
      rw [List.length_drop] at this
      omega
  rcases truncation_exact hl hd hn hs hnn hlt with ⟨hsil, -⟩ | ⟨-, h⟩
  · exfalso
    rcases hsil with ⟨h12, hmod⟩ | ⟨pre', last', h3, h4, h6⟩
    · have : (pre ++ [last]).length < 256 ^ (n - 4) := by
        calc (pre ++ [last]).length < 256 := by simpa using hcount
          _ = 256 ^ 1 := by norm_num
          _ ≤ 256 ^ (n - 4) := Nat.pow_le_pow_right (by omega) (by omega)
      rw [Nat.mod_eq_of_lt this] at hmod
      simp at hmod
    · obtain ⟨h7, h8⟩ := List.append_inj' h3 rfl
      simp only [List.cons.injEq, and_true] at h8
      subst h7 h8
      rcases hcut with h | ⟨b, hb, hb0⟩
      · omega
      · exact hb0 (h6 b hb)
  · exact h

/-! ## C60 -/

/-- The full claim of C60. -/
def LoadStateAtomic : Prop :=
  ∀ (lim : Nat) (d : Dict) (data : List Byte) (x : Exn) (s : LoadSt), lim < 2 ^ 63 →
    (d.map Prod.fst).Nodup → loadFrom lim d data = (.throw x, s) → s.dict = d

/-- **C60 is violated by the code**: the first tensor is overwritten before the shape of the second
is found to be wrong. -/
theorem load_state_not_atomic : ¬ LoadStateAtomic := by
  intro h
  have h1 : loadFrom 1000 exD (stateFile [("fc.weight", ⟨[1, 2], [0, 0, 0, 0, 0, 0, 0, 0]⟩), ("fc.bias", ⟨[2], []⟩)]) =
      (.throw .dw, ⟨[("fc.weight", ⟨[1, 2], [0, 0, 0, 0, 0, 0, 0, 0]⟩), ("fc.bias", ⟨[1], [9, 9, 9, 9]⟩)], ⟨[], false⟩⟩) := by
    decide +kernel
  have := h _ _ _ _ _ (by decide) (by decide) h1
  revert this
  decide

/-- **C60 (proved part).** If `load_state` throws, the dict holds the contents of zero or more
complete entries of the file and is otherwise unchanged; it is untouched if the file announces at
most one entry. Missing: restoring the entries already stored. -/
theorem load_state_atomic_partial (hl : lim < 2 ^ 63) {d : Dict} (hn : (d.map Prod.fst).Nodup)
    (hb : ∀ en ∈ d, en.2.bytes.length < 2 ^ 63) {data : List Byte} {x : Exn} {s : LoadSt}
    (h : loadFrom lim d data = (.throw x, s)) :
    ∃ es : Dict, s.dict = pokes es d ∧
      (∀ en ∈ es, ∃ t, d.lookup en.1 = some t ∧ t.shape = en.2.shape ∧
        en.2.bytes.length ≤ t.bytes.length) ∧
      (leNat (padTake 8 (data.drop 4)) ≤ 1 → s.dict = d) := by
  rw [loadFrom, loadState_eq (by simp [SerL.Inv])] at h
  by_cases hk : bytesInt (padTake 4 data) = 0
  · rw [if_pos hk] at h
    simp only at h
    obtain ⟨es, e1, e2, e3⟩ := loop_throw hl _ 0 hn hb (inv_adv (by simp [SerL.Inv]) 12) (congrArg Prod.fst h)
    rw [h] at e2
    refine ⟨es, e2, e3, fun h1 => ?_⟩
    have : es = [] := List.length_eq_zero_iff.1 (by omega)
    rw [e2, this]
    rfl
  · rw [if_neg hk] at h
    simp only [Prod.mk.injEq] at h
    rw [← h.2]
    exact ⟨[], rfl, by simp, fun _ => rfl⟩

end DW.Props.SerP
