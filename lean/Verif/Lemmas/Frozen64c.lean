import Verif.Lemmas.Frozen64b
/-
The containers of a frozen 64-bit bitmap: written into a buffer, and viewed there.
-/
set_option linter.unusedSimpArgs false
set_option linter.unusedVariables false
namespace CRoaring
open Spec

/-! ### What is written -/

theorem totalSizes_go (cs : List Container) (ht : ∀ c ∈ cs, CTyped c) : ∀ z : Nat × Nat × Nat,
    cs.foldl zoneStep z = (z.1 + (cs.flatMap bzC).length, z.2.1 + (cs.flatMap rzC).length, z.2.2 + (cs.flatMap azC).length) := by
  induction cs with
  | nil => intro z; rfl
  | cons c t ih =>
    intro z
    have hp := ht c (by simp)
    rw [List.foldl_cons, ih fun q hq => ht q (by simp [hq])]
    cases c with
    | bitset b =>
      have : b.words.length = NWORDS := hp
      simp [zoneStep, bzC, rzC, azC, wordBytes_length, this]; omega
    | run rs =>
      simp only [zoneStep, bzC, rzC, azC, List.flatMap_cons, List.length_append, List.length_nil, rles_length]
      simp only [Prod.mk.injEq]; omega
    | array l =>
      simp only [zoneStep, bzC, rzC, azC, List.flatMap_cons, List.length_append, List.length_nil, u16s_length]
      simp only [Prod.mk.injEq]; omega

theorem totalSizes_eq {cs : List Container} (ht : ∀ c ∈ cs, CTyped c) :
    totalSizes cs = ((cs.flatMap bzC).length, (cs.flatMap rzC).length, (cs.flatMap azC).length) := by
  unfold totalSizes
  rw [totalSizes_go cs ht]
  simp

theorem bzC_le {c : Container} (h : CNe c) : (bzC c).length + (rzC c).length + (azC c).length ≤ 131072 := by
  have ht := h.1.typed
  cases c with
  | bitset b =>
    have : b.words.length = NWORDS := ht
    simp [bzC, rzC, azC, wordBytes_length, this, NWORDS]
  | run rs =>
    have := RunOK.length_le h.1
    simp only [bzC, rzC, azC, List.length_nil, rles_length]; omega
  | array l =>
    have hcd := containerCard_eq h.1.rep
    have hf := card_field h
    simp only [containerCard] at hcd hf
    simp only [bzC, rzC, azC, List.length_nil, u16s_length]; omega

theorem zones_le {cs : List Container} (h : ∀ c ∈ cs, CNe c) :
    (cs.flatMap bzC).length + (cs.flatMap rzC).length + (cs.flatMap azC).length ≤ 131072 * cs.length := by
  induction cs with
  | nil => simp
  | cons c t ih =>
    have h1 := bzC_le (h c (by simp))
    have h2 := ih (fun d hd => h d (by simp [hd]))
    simp only [List.flatMap_cons, List.length_append, List.length_cons]
    omega

theorem frozenWrite64_eq (suf : List Container) : ∀ {A X B Y C Z D : List UInt8} {bz rz az : Nat}, (∀ c ∈ suf, CTyped c) →
    X.length = (suf.flatMap bzC).length → Y.length = (suf.flatMap rzC).length → Z.length = (suf.flatMap azC).length →
    bz = A.length → rz = A.length + X.length + B.length → az = A.length + X.length + B.length + Y.length + C.length →
    frozenWrite64 suf bz rz az (A ++ (X ++ (B ++ (Y ++ (C ++ (Z ++ D)))))) =
      .ok (A ++ (suf.flatMap bzC ++ (B ++ (suf.flatMap rzC ++ (C ++ (suf.flatMap azC ++ D)))))) := by
  induction suf with
  | nil =>
    intro A X B Y C Z D bz rz az _ hX hY hZ _ _ _
    have e1 : X = [] := List.eq_nil_of_length_eq_zero (by rw [hX]; rfl)
    have e2 : Y = [] := List.eq_nil_of_length_eq_zero (by rw [hY]; rfl)
    have e3 : Z = [] := List.eq_nil_of_length_eq_zero (by rw [hZ]; rfl)
    subst e1 e2 e3
    rfl
  | cons c t ih =>
    intro A X B Y C Z D bz rz az ht hX hY hZ h1 h2 h3
    have hp := ht c (by simp)
    have ht' : ∀ q ∈ t, CTyped q := fun q hq => ht q (by simp [hq])
    cases c with
    | bitset b =>
      have hb : b.words.length = NWORDS := hp
      have ez : (Container.bitset b :: t).flatMap bzC = wordBytes b.words ++ t.flatMap bzC := rfl
      have er : (Container.bitset b :: t).flatMap rzC = t.flatMap rzC := rfl
      have ea : (Container.bitset b :: t).flatMap azC = t.flatMap azC := rfl
      rw [ez, List.length_append] at hX
      rw [er] at hY
      rw [ea] at hZ
      obtain ⟨x1, x2, rfl, hx1, hx2⟩ := cut hX
      have hl := wordBytes_length b.words
      rw [hb] at hl
      simp only [List.length_append] at h1 h2 h3
      rw [frozenWrite64, ez, er, ea]
      rw [show A ++ (x1 ++ x2 ++ (B ++ (Y ++ (C ++ (Z ++ D))))) = A ++ (x1 ++ (x2 ++ (B ++ (Y ++ (C ++ (Z ++ D)))))) by simp]
      rw [memWrite_mid h1 hx1, ok_bind]
      have := ih (A := A ++ wordBytes b.words) (X := x2) (B := B) (Y := Y) (C := C) (Z := Z) (D := D)
        (bz := bz + NWORDS * 8) (rz := rz) (az := az) ht' hx2 hY hZ
        (by simp only [List.length_append]; omega) (by simp only [List.length_append]; omega) (by simp only [List.length_append]; omega)
      simp only [List.append_assoc] at this ⊢
      exact this
    | run rs =>
      have ez : (Container.run rs :: t).flatMap bzC = t.flatMap bzC := rfl
      have er : (Container.run rs :: t).flatMap rzC = (rs.flatMap fun p => leBytes 2 p.1 ++ leBytes 2 p.2) ++ t.flatMap rzC := rfl
      have ea : (Container.run rs :: t).flatMap azC = t.flatMap azC := rfl
      rw [ez] at hX
      rw [er, List.length_append] at hY
      rw [ea] at hZ
      obtain ⟨x1, x2, rfl, hx1, hx2⟩ := cut hY
      have hl := rles_length rs
      simp only [List.length_append] at h1 h2 h3
      rw [frozenWrite64, ez, er, ea]
      generalize (rs.flatMap fun p => leBytes 2 p.1 ++ leBytes 2 p.2) = q at *
      rw [show A ++ (X ++ (B ++ (x1 ++ x2 ++ (C ++ (Z ++ D))))) = (A ++ X ++ B) ++ (x1 ++ (x2 ++ (C ++ (Z ++ D)))) by simp]
      rw [memWrite_mid (by simp only [List.length_append]; omega) hx1, ok_bind]
      have := ih (A := A) (X := X) (B := B ++ q) (Y := x2) (C := C) (Z := Z) (D := D)
        (bz := bz) (rz := rz + rs.length * 4) (az := az) ht' hX hx2 hZ h1
        (by simp only [List.length_append]; omega) (by simp only [List.length_append]; omega)
      simp only [List.append_assoc] at this ⊢
      exact this
    | array l =>
      have ez : (Container.array l :: t).flatMap bzC = t.flatMap bzC := rfl
      have er : (Container.array l :: t).flatMap rzC = t.flatMap rzC := rfl
      have ea : (Container.array l :: t).flatMap azC = l.flatMap (leBytes 2) ++ t.flatMap azC := rfl
      rw [ez] at hX
      rw [er] at hY
      rw [ea, List.length_append] at hZ
      obtain ⟨x1, x2, rfl, hx1, hx2⟩ := cut hZ
      have hl := u16s_length l
      rw [frozenWrite64, ez, er, ea]
      generalize l.flatMap (leBytes 2) = q at *
      rw [show A ++ (X ++ (B ++ (Y ++ (C ++ (x1 ++ x2 ++ D))))) = (A ++ X ++ B ++ Y ++ C) ++ (x1 ++ (x2 ++ D)) by simp]
      rw [memWrite_mid (by simp only [List.length_append]; omega) hx1, ok_bind]
      have := ih (A := A) (X := X) (B := B) (Y := Y) (C := C ++ q) (Z := x2) (D := D)
        (bz := bz) (rz := rz) (az := az + l.length * 2) ht' hX hY hx2 h1 h2
        (by simp only [List.length_append]; omega)
      simpa only [List.append_assoc] using this

/-! ### What is read -/

theorem elemCount_spec {c : Container} (h : CNe c) :
    elemCount c < 65536 ∧ match c with
    | .bitset b => ((elemCount c + 1 : Nat) : Int) = b.card
    | .run rs => elemCount c + 1 = rs.length
    | .array l => elemCount c + 1 = l.length := by
  have hf := card_field h
  have hcd := containerCard_eq h.1.rep
  cases c with
  | bitset b =>
    simp only [containerCard] at hf hcd
    simp only [elemCount]
    omega
  | run rs =>
    have := RunOK.length_le h.1
    have hne : rs ≠ [] := by
      rintro rfl
      obtain ⟨x, hx⟩ := h.2
      simp [chas, runHas] at hx
    have hpos : 0 < rs.length := List.length_pos_iff.2 hne
    simp only [elemCount]
    omega
  | array l =>
    simp only [containerCard] at hf hcd
    simp only [elemCount]
    omega

theorem containerFrozenView_at {buf : List UInt8} {c : Container} (h : CNe c) {bz rz az : Nat} {x y z : List UInt8} (hb : At buf bz (bzC c ++ x))
    (hr : At buf rz (rzC c ++ y)) (ha : At buf az (azC c ++ z)) :
    ∃ bz' rz' az', containerFrozenView buf (typecode c) (elemCount c + 1) bz rz az = .ok (some c, bz', rz', az') ∧ At buf bz' x ∧ At buf rz' y ∧ At buf az' z := by
  have hct := h.1.typed
  have hco := (elemCount_spec h).2
  unfold containerFrozenView
  cases c with
  | bitset b =>
    have hbw : b.words.length = NWORDS := hct
    have hb' : At buf bz (wordBytes b.words ++ x) := hb
    have hw := readWords_at b.words hb'.left
    rw [hbw] at hw
    have hl := wordBytes_length b.words
    rw [hbw] at hl
    simp only at hco
    refine ⟨_, _, _, ?_, hb'.right' hl, by simpa [rzC] using hr, by simpa [azC] using ha⟩
    rw [if_pos (by rfl), hw, hco]
  | run rs =>
    have hr' : At buf rz ((rs.flatMap fun p => leBytes 2 p.1 ++ leBytes 2 p.2) ++ y) := hr
    simp only at hco
    refine ⟨_, _, _, ?_, by simpa [bzC] using hb, hr'.right' (rles_length rs), by simpa [azC] using ha⟩
    rw [if_neg (by simp [typecode, RUN_TYPE, BITSET_TYPE]), if_neg (by simp [typecode, RUN_TYPE, ARRAY_TYPE]), if_pos (by rfl), hco, readRles_at rs hct hr'.left]
  | array l =>
    have ha' : At buf az (l.flatMap (leBytes 2) ++ z) := ha
    simp only at hco
    refine ⟨_, _, _, ?_, by simpa [bzC] using hb, by simpa [rzC] using hr, ha'.right' (u16s_length l)⟩
    rw [if_neg (by simp [typecode, ARRAY_TYPE, BITSET_TYPE]), if_pos (by rfl), hco, readU16s_at l hct ha'.left]

/-- A leaf, what it holds and its container. -/
structure FLeaf where
  ref : ArtRef
  leaf : Nat
  c : Container

/-- The counts as they are written. -/
def ecBytes (cs : List Container) : List UInt8 := cs.flatMap fun c => leBytes 2 (elemCount c)

theorem ecBytes_length (cs : List Container) : (ecBytes cs).length = 2 * cs.length := by
  unfold ecBytes
  rw [flatMap_length_const (fun c => leBytes_length 2 _)]; omega

theorem viewLoop64_at {buf : List UInt8} {cs : List Container} (hec : At buf 9 (ecBytes cs)) : ∀ (es : List FLeaf) {pre : List Container} {r : R64M} {bz rz az : Nat},
    cs = pre ++ es.map FLeaf.c → (∀ e ∈ es, CNe e.c) → (∀ e ∈ es, r.art.load (r.art.heap.deref e.ref) = .ok e.leaf) →
    (∀ e ∈ es, leafType e.leaf = typecode e.c) → (∀ e ∈ es, leafIndex e.leaf < r.containers.length) → (es.map fun e => leafIndex e.leaf).Nodup →
    At buf bz ((es.map FLeaf.c).flatMap bzC) → At buf rz ((es.map FLeaf.c).flatMap rzC) → At buf az ((es.map FLeaf.c).flatMap azC) →
    ∃ r', viewLoop64 buf (es.map FLeaf.ref) pre.length bz rz az r = .ok r' ∧ r'.art = r.art ∧ r'.first = r.first ∧
      r'.mem = r.mem ++ es.map (fun e => some e.c) ∧ r'.containers.length = r.containers.length ∧
      (∀ (j : Nat) e, es[j]? = some e → r'.containers[leafIndex e.leaf]? = some (some (r.mem.length + j))) ∧
      ∀ i, (∀ e ∈ es, leafIndex e.leaf ≠ i) → r'.containers[i]? = r.containers[i]?
  | [], pre, r, bz, rz, az, _, _, _, _, _, _, _, _, _ => ⟨r, rfl, rfl, rfl, by simp, rfl, by simp, by simp⟩
  | e :: es, pre, r, bz, rz, az, hcs, hne, hload, hty, hidx, hnd, hb, hr, ha => by
    have he := List.mem_cons_self (a := e) (l := es)
    rw [List.map_cons, List.nodup_cons] at hnd
    simp only [List.map_cons] at hcs hb hr ha ⊢
    obtain ⟨bz', rz', az', g1, g2, g3, g4⟩ := containerFrozenView_at (hne e he) hb hr ha
    have hcount : readLE buf (9 + 2 * pre.length) 2 = .ok (elemCount e.c) := by
      rw [hcs] at hec
      exact readLE_at (At.entry (fun c => leBytes_length 2 _) hec) (by have := (elemCount_spec (hne e he)).1; omega)
    obtain ⟨r', f1, f2, f3, f4, f5, f6, f7⟩ := viewLoop64_at hec es (pre := pre ++ [e.c])
      (r := { r with mem := r.mem ++ [some e.c], containers := r.containers.set (leafIndex e.leaf) (some r.mem.length) }) (by simp [hcs])
      (fun d hd => hne d (List.mem_cons_of_mem _ hd)) (fun d hd => hload d (List.mem_cons_of_mem _ hd)) (fun d hd => hty d (List.mem_cons_of_mem _ hd))
      (fun d hd => by simpa using hidx d (List.mem_cons_of_mem _ hd)) hnd.2 g2 g3 g4
    refine ⟨r', ?_, f2, f3, by rw [f4]; simp, by rw [f5]; simp, fun j d hd => ?_, fun i hi => ?_⟩
    · unfold viewLoop64
      rw [hload e he, ok_bind, hcount, ok_bind, hty e he, g1, ok_bind, setSlot_ok (r := { r with mem := r.mem ++ [some e.c] }) (hidx e he), ok_bind]
      simp only [List.length_append, List.length_singleton] at f1
      exact f1
    · cases j with
      | zero =>
        simp only [List.getElem?_cons_zero, Option.some.injEq] at hd
        subst hd
        rw [f7 _ (fun d hd' h => hnd.1 (by rw [← h]; exact List.mem_map.2 ⟨d, hd', rfl⟩))]
        simp [get_set, hidx e he]
      | succ j =>
        simp only [List.getElem?_cons_succ] at hd
        rw [f6 j d hd]
        simp only [List.length_append, List.length_singleton]
        congr 2; omega
    · rw [f7 i (fun d hd => hi d (List.mem_cons_of_mem _ hd))]
      simp only [get_set]
      rw [if_neg (fun h => hi e he h.1)]

/-! ### What a bitmap and its view have in common -/

/-- The leaves of a bitmap. -/
theorem St.entries {r : R64M} {L F : ArtRef → Prop} {m : List Nat → Option Nat} {C : List Nat → Option Container} (h : St r L F m C) :
    ∃ es : List FLeaf, r.art.leaves = .ok (es.map FLeaf.ref) ∧ (es.map FLeaf.ref).Nodup ∧ (es.map fun e => leafIndex e.leaf).Nodup ∧
      (∀ e ∈ es, ∃ k a, LeafOf r.art F k e.ref ∧ Leads r L F m C k (r.art.heap.deref e.ref) e.leaf a e.c) ∧
      ∀ k, IsKey k → m k ≠ none → ∃ e ∈ es, LeafOf r.art F k e.ref := by
  obtain ⟨l, h1, h2, h3, h4⟩ := h.map.leaves
  have hex : ∀ l' : List ArtRef, (∀ x ∈ l', x ∈ l) → ∃ es : List FLeaf, es.map FLeaf.ref = l' ∧
      ∀ e ∈ es, ∃ k a, LeafOf r.art F k e.ref ∧ Leads r L F m C k (r.art.heap.deref e.ref) e.leaf a e.c := by
    intro l'
    induction l' with
    | nil => intro _; exact ⟨[], rfl, by simp⟩
    | cons x l' ih =>
      intro hx
      obtain ⟨es, e1, e2⟩ := ih (fun y hy => hx y (List.mem_cons_of_mem _ hy))
      obtain ⟨k, hk⟩ := h3 x (hx x (List.mem_cons_self ..))
      obtain ⟨j, a, c, hA⟩ := h.at (h.map.ptr hk)
      refine ⟨⟨x, j, c⟩ :: es, by simp [e1], fun e he => ?_⟩
      rcases List.mem_cons.1 he with rfl | he
      · exact ⟨k, a, hk, hA⟩
      · exact e2 e he
  obtain ⟨es, e1, e2⟩ := hex l (fun _ h => h)
  refine ⟨es, by rw [e1]; exact h1, by rw [e1]; exact h2, ?_, e2, fun k hk hm => ?_⟩
  · rw [← e1] at h2
    unfold List.Nodup at h2 ⊢
    rw [List.pairwise_map] at h2 ⊢
    refine List.Pairwise.imp_of_mem (fun {d e} hd he hne => ?_) h2
    intro heq
    obtain ⟨k, a, k1, k2⟩ := e2 d hd
    obtain ⟨k', a', k3, k4⟩ := e2 e he
    have := h.slots.inj k k' d.leaf e.leaf k2.ptr.key k4.ptr.key k2.leaf k4.leaf heq
    subst this
    exact hne (LeafOf.ref_eq h.map k1 k3)
  · obtain ⟨x, hx, hx'⟩ := h4 k hk hm
    rw [← e1] at hx
    obtain ⟨e, he, rfl⟩ := List.mem_map.1 hx
    exact ⟨e, he, hx'⟩

theorem lookAll_eq {r : R64M} : ∀ (es : List FLeaf), (∀ e ∈ es, ∃ a, r.look (r.art.heap.deref e.ref) = .ok (e.leaf, a, e.c)) →
    r.lookAll (es.map FLeaf.ref) = .ok (es.map FLeaf.c)
  | [], _ => rfl
  | e :: es, h => by
    obtain ⟨a, ha⟩ := h e (List.mem_cons_self ..)
    simp only [List.map_cons, R64M.lookAll, ha, ok_bind, lookAll_eq es (fun d hd => h d (List.mem_cons_of_mem _ hd))]

/-- The number of leaves, if every place of the array of containers is in use. -/
theorem St.count {r : R64M} {L F : ArtRef → Prop} {m : List Nat → Option Nat} {C : List Nat → Option Container} (h : St r L F m C)
    (hfull : r.first = r.containers.length) {es : List FLeaf} (hnd : (es.map fun e => leafIndex e.leaf).Nodup)
    (hes : ∀ e ∈ es, ∃ k a, LeafOf r.art F k e.ref ∧ Leads r L F m C k (r.art.heap.deref e.ref) e.leaf a e.c)
    (hall : ∀ k, IsKey k → m k ≠ none → ∃ e ∈ es, LeafOf r.art F k e.ref) : es.length = r.containers.length := by
  have h1 : (es.map fun e => leafIndex e.leaf).length ≤ (List.range r.containers.length).length := by
    refine nodup_length_le hnd (fun i hi => ?_)
    obtain ⟨e, he, rfl⟩ := List.mem_map.1 hi
    obtain ⟨k, a, k1, k2⟩ := hes e he
    rw [List.mem_range]
    exact slot_lt k2.slot
  have h2 : (List.range r.containers.length).length ≤ (es.map fun e => leafIndex e.leaf).length := by
    refine nodup_length_le List.nodup_range (fun i hi => ?_)
    rw [List.mem_range] at hi
    have hne := h.first.before i (by omega)
    rw [List.getElem?_eq_getElem hi] at hne
    obtain ⟨a, ha⟩ : ∃ a, r.containers[i]? = some (some a) := by
      rw [List.getElem?_eq_getElem hi]
      cases hv : r.containers[i] with
      | none => rw [hv] at hne; exact absurd rfl hne
      | some a => exact ⟨a, rfl⟩
    obtain ⟨k, l, k1, k2, k3⟩ := h.slots.used i a ha
    obtain ⟨e, he, he'⟩ := hall k k1 (by rw [k2]; simp)
    obtain ⟨k', a', k4, k5⟩ := hes e he
    have := he'.key_eq k4
    subst this
    rw [k5.leaf] at k2
    cases k2
    exact List.mem_map.2 ⟨e, he, k3⟩
  simp only [List.length_map, List.length_range] at h1 h2
  omega

/-- A bitmap whose leaves are the same, and lead to the same containers. -/
structure SameView (r v : R64M) (F : ArtRef → Prop) (es : List FLeaf) : Prop where
  like : Like r.art.heap v.art.heap F
  root : v.art.root = r.art.root
  slot : ∀ (j : Nat) e, es[j]? = some e → v.containers[leafIndex e.leaf]? = some (some j)
  mem : v.mem = es.map fun e => some e.c

theorem SameView.look {r v : R64M} {L F : ArtRef → Prop} {m : List Nat → Option Nat} {C : List Nat → Option Container} {es : List FLeaf}
    (hv : SameView r v F es) (h : St r L F m C) {e : FLeaf} {j : Nat} (hj : es[j]? = some e) {k : List Nat} {a : Nat}
    (hk : LeafOf r.art F k e.ref) (hA : Leads r L F m C k (r.art.heap.deref e.ref) e.leaf a e.c) :
    v.art.load (v.art.heap.deref e.ref) = .ok e.leaf ∧ v.getContainer e.leaf = .ok j ∧ v.look (v.art.heap.deref e.ref) = .ok (e.leaf, j, e.c) := by
  have h1 := like_load hv.like hk.1 hA.load
  have h2 : v.getContainer e.leaf = .ok j := by unfold R64M.getContainer; rw [hv.slot j e hj]
  refine ⟨h1, h2, ?_⟩
  unfold R64M.look
  rw [h1, ok_bind, h2, ok_bind]
  unfold R64M.deref
  rw [hv.mem, List.getElem?_map, hj]
  simp only [Option.map_some]
  rw [if_pos (show typecode e.c = leafType e.leaf from hA.type), ok_bind]

theorem SameView.leaves {r v : R64M} {L F : ArtRef → Prop} {m : List Nat → Option Nat} {C : List Nat → Option Container} {es : List FLeaf}
    (hv : SameView r v F es) (h : St r L F m C) (hl : r.art.leaves = .ok (es.map FLeaf.ref)) : v.art.leaves = .ok (es.map FLeaf.ref) :=
  like_leaves hv.like h.map.closed.1 hv.root h.map.closed.2.1 hl

theorem SameView.contains {r v : R64M} {L F : ArtRef → Prop} {m : List Nat → Option Nat} {C : List Nat → Option Container} {es : List FLeaf}
    (hv : SameView r v F es) (h : St r L F m C) (hes : ∀ e ∈ es, ∃ k a, LeafOf r.art F k e.ref ∧ Leads r L F m C k (r.art.heap.deref e.ref) e.leaf a e.c)
    (hall : ∀ k, IsKey k → m k ≠ none → ∃ e ∈ es, LeafOf r.art F k e.ref) (x : Nat) : v.contains x = r.contains x := by
  have hk := splitKey_isKey x
  unfold R64M.contains
  rcases h.find hk with ⟨h1, h2, h3⟩ | ⟨p, l, a, c, h1, hA⟩
  · rw [h3, (like_find hv.like h.map.closed.1 hv.root h.map.closed.2.1 h3).1]
    rfl
  · rw [h1, (like_find hv.like h.map.closed.1 hv.root h.map.closed.2.1 h1).1]
    simp only [Option.map_some, ok_bind]
    obtain ⟨e, he, he'⟩ := hall _ hk (by rw [hA.leaf]; simp)
    obtain ⟨k', a', k4, k5⟩ := hes e he
    have e1 := he'.key_eq k4
    subst e1
    have e2 := LeafOf.ref_eq h.map hA.ptr.leaf k4
    obtain ⟨j, hj⟩ := List.getElem?_of_mem he
    have e3 := (hv.look h hj k4 k5).2.2
    rw [← e2] at e3
    rw [e3, hA.look, ok_bind, ok_bind]
    have := k5.here
    rw [hA.here] at this
    cases this
    rfl

theorem SameView.copy {r v : R64M} {L F : ArtRef → Prop} {m : List Nat → Option Nat} {C : List Nat → Option Container} {es : List FLeaf}
    (hv : SameView r v F es) (h : St r L F m C) (hl : r.art.leaves = .ok (es.map FLeaf.ref))
    (hes : ∀ e ∈ es, ∃ k a, LeafOf r.art F k e.ref ∧ Leads r L F m C k (r.art.heap.deref e.ref) e.leaf a e.c) : v.copyWalk = r.copyWalk := by
  unfold R64M.copyWalk
  rw [hl, hv.leaves h hl, ok_bind, ok_bind]
  have hstep : ∀ e ∈ es, ∀ d, v.copyLeaf d e.ref = r.copyLeaf d e.ref := by
    intro e he d
    obtain ⟨k, a, k1, k2⟩ := hes e he
    obtain ⟨j, hj⟩ := List.getElem?_of_mem he
    have hp : r.art.heap.peekLeaf (r.art.heap.deref e.ref) = .ok (k, k1.2.choose) := peekLeaf_ok (deref_valid _ _) k1.2.choose_spec
    unfold R64M.copyLeaf
    rw [hp, like_peekLeaf hv.like k1.1 hp, (hv.look h hj k1 k2).2.2, k2.look]
    simp only [ok_bind]
  clear hl
  generalize R64M.create = d
  have : ∀ (fs : List FLeaf) (d : R64M), (∀ e ∈ fs, e ∈ es) → (fs.map FLeaf.ref).foldlM (fun result ref => v.copyLeaf result ref) d =
      (fs.map FLeaf.ref).foldlM (fun result ref => r.copyLeaf result ref) d := by
    intro fs
    induction fs with
    | nil => intro d _; rfl
    | cons f fs ih =>
      intro d hf
      rw [List.map_cons, List.foldlM_cons, List.foldlM_cons, hstep f (hf f (List.mem_cons_self ..))]
      congr 1
      funext d'
      exact ih d' (fun e he => hf e (List.mem_cons_of_mem _ he))
  exact this es d (fun _ h => h)

theorem SameView.free {r v : R64M} {L F : ArtRef → Prop} {m : List Nat → Option Nat} {C : List Nat → Option Container} {es : List FLeaf}
    (hv : SameView r v F es) (h : St r L F m C) (hl : r.art.leaves = .ok (es.map FLeaf.ref))
    (hes : ∀ e ∈ es, ∃ k a, LeafOf r.art F k e.ref ∧ Leads r L F m C k (r.art.heap.deref e.ref) e.leaf a e.c) : v.freeView = .ok (List.range v.mem.length) := by
  unfold R64M.freeView
  rw [hv.leaves h hl, ok_bind]
  have : ∀ (suf pre : List FLeaf), es = pre ++ suf → (suf.map FLeaf.ref).foldlM (fun (freed : List Nat) x => do
      let leaf ← v.art.load (v.art.heap.deref x)
      let a ← v.getContainer leaf
      if a ∈ freed then Out.oob else .ok (freed ++ [a])) (List.range pre.length) = .ok (List.range es.length) := by
    intro suf
    induction suf with
    | nil => intro pre e; rw [e]; simp [pure_ok]
    | cons e suf ih =>
      intro pre he
      have hj : es[pre.length]? = some e := by rw [he]; simp
      obtain ⟨k, a, k1, k2⟩ := hes e (by rw [he]; simp)
      obtain ⟨g1, g2, -⟩ := hv.look h hj k1 k2
      rw [List.map_cons, List.foldlM_cons, g1, ok_bind, g2, ok_bind, if_neg (by simp), ok_bind, ← List.range_succ]
      have := ih (pre ++ [e]) (by simp [he])
      rw [List.length_append, List.length_singleton] at this
      exact this
  rw [hv.mem, List.length_map]
  exact this es [] rfl

end CRoaring
