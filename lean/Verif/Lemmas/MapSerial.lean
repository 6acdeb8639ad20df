import Verif.Model.MapSerial
import Verif.Lemmas.Map64
import Verif.Lemmas.Serial64b
import Verif.Lemmas.Frozen2
set_option linter.unusedSimpArgs false
set_option linter.unusedVariables false
/-
Lemmas about the serialized forms of `Roaring64Map`.
-/
namespace CRoaring
open Spec

/-! ### Canonical containers -/

theorem chas_card {c : Container} (h : CInv c) : isRun c = false →
    (4096 < Spec.card 65536 (chas c) ↔ ∃ b, c = .bitset b) := by
  intro hr
  cases c with
  | bitset b =>
    have := h.1.card
    have e : (chas (.bitset b)) = bitAt b.words := rfl
    rw [e]
    have := h.2
    constructor
    · intro _; exact ⟨b, rfl⟩
    · intro _; omega
  | array l =>
    have h2 := h.2
    have e : Spec.card 65536 (chas (.array l)) = l.length := h.1.card
    rw [e]
    constructor
    · intro _; omega
    · rintro ⟨b, hb⟩; cases hb
  | run rs => simp [isRun] at hr

theorem canon_unique {c c' : Container} (h : CInv c) (h' : CInv c') (hr : isRun c = false) (hr' : isRun c' = false)
    (e : ∀ x, chas c x = chas c' x) : c = c' := by
  have e' : chas c = chas c' := funext e
  have k := chas_card h hr
  have k' := chas_card h' hr'
  rw [e'] at k
  cases c with
  | run rs => simp [isRun] at hr
  | bitset b =>
    obtain ⟨b', rfl⟩ := k'.1 (k.2 ⟨b, rfl⟩)
    have hw : b.words = b'.words := words_ext_bit (by rw [h.1.len, h'.1.len]) fun x _ => e x
    have hc : b.card = b'.card := by rw [h.1.card, h'.1.card, hw]
    obtain ⟨w, n⟩ := b
    obtain ⟨w', n'⟩ := b'
    simp only at hw hc
    rw [hw, hc]
  | array l =>
    cases c' with
    | run rs => simp [isRun] at hr'
    | bitset b' =>
      obtain ⟨b, hb⟩ := k.1 (k'.2 ⟨b', rfl⟩)
      cases hb
    | array l' =>
      rw [sorted_ext h.1.sorted h'.1.sorted fun x => by
        have := e x
        simp only [chas] at this
        constructor
        · intro hx; simpa [hx] using this.symm
        · intro hx; simpa [hx] using this]

theorem raHasRun_cons (p : Nat × Container) (t : Bitmap) : raHasRun (p :: t) = (isRun p.2 || raHasRun t) := rfl

theorem bitmap_unique {a : Bitmap} (ha : BInv a) : ∀ {b : Bitmap}, BInv b → raHasRun a = false → raHasRun b = false →
    (∀ x, bhas a x = bhas b x) → a = b := by
  induction a with
  | nil =>
    intro b hb _ _ h
    have := (rbEquals_iff (a := []) trivial hb).2 h
    cases b with
    | nil => rfl
    | cons p t => simp [rbEquals] at this
  | cons p t ih =>
    intro b hb r1 r2 h
    have he := (rbEquals_iff ha hb).2 h
    obtain ⟨k, c⟩ := p
    cases b with
    | nil => simp [rbEquals] at he
    | cons p' t' =>
      obtain ⟨k', c'⟩ := p'
      obtain ⟨h1, h2, h3⟩ := (rbEquals_cons _ _ _ _ _ _).1 he
      rw [raHasRun_cons, Bool.or_eq_false_iff] at r1 r2
      rw [h1, canon_unique ha.2.1.1 hb.2.1.1 r1.1 r2.1 ((containerEquals_iff ha.2.1.1.rep hb.2.1.1.rep).1 h2),
        ih ha.2.2.2 hb.2.2.2 r1.2 r2.2 ((rbEquals_iff ha.2.2.2 hb.2.2.2).1 h3)]

theorem containerAdd_noRun {c : Container} (h : isRun c = false) (v : Nat) : isRun (containerAdd v c) = false := by
  cases c with
  | bitset b => rfl
  | array l => simp only [containerAdd]; split <;> rfl
  | run rs => simp [isRun] at h

theorem noRun_mem {r : Bitmap} : raHasRun r = false ↔ ∀ p ∈ r, isRun p.2 = false := by
  simp [raHasRun]

theorem rbAdd_noRun {r : Bitmap} (h : raHasRun r = false) (v : Nat) : raHasRun (rbAdd r v) = false := by
  rw [noRun_mem] at h ⊢
  have hc : ∀ i, isRun (contAt r i) = false := by
    intro i
    by_cases hi : i < r.length
    · have := h r[i] (List.getElem_mem hi)
      rw [← cell_eq hi] at this
      exact this
    · unfold contAt
      rw [List.getD_eq_getElem?_getD, List.getElem?_eq_none (by omega)]
      rfl
  unfold rbAdd
  dsimp only
  split
  · intro p hp
    rcases List.mem_or_eq_of_mem_set hp with hp | rfl
    · exact h p hp
    · exact containerAdd_noRun (hc _) _
  · intro p hp
    unfold raInsertAt at hp
    rcases List.mem_append.1 hp with hp | hp
    · exact h p (List.mem_of_mem_take hp)
    · rcases List.mem_cons.1 hp with rfl | hp
      · exact containerAdd_noRun (c := .array []) rfl _
      · exact h p (List.mem_of_mem_drop hp)

theorem rbAddManyLoop_noRun (vals : List Nat) : ∀ {r : Bitmap} {ctx : BulkCtx}, BInv r → CtxOK r ctx →
    (∀ v ∈ vals, v < 4294967296) → raHasRun r = false → raHasRun (rbAddManyLoop r ctx vals) = false := by
  induction vals with
  | nil => intro r ctx _ _ _ h; exact h
  | cons v vs ih =>
    intro r ctx hb hc hv h
    obtain ⟨e1, e2⟩ := rbAddBulk_spec hb hc v
    have hb' : BInv (rbAdd r v) := (rbAddManyLoop_spec [v] hb hc (by simpa using hv v (by simp))).1 |> fun t => by
      simpa [rbAddManyLoop, e1] using t
    simp only [rbAddManyLoop]
    rw [e1]
    exact ih hb' e2 (fun w hw => hv w (by simp [hw])) (rbAdd_noRun h v)

/-- The native form of a bitmap is read back as the very same containers: the portable form was shorter, or there is no run
container. -/
def NativeStable (b : Bitmap) : Prop := rbPortableSize b < rbCardinality b * 4 + 4 ∨ raHasRun b = false

theorem deserialize_stable {r : Bitmap} (h : BInv r) (hs : NativeStable r) (tail : List UInt8) :
    rbDeserialize (natBytes r ++ tail) = .ok r := by
  have hat : At (natBytes r ++ tail) 0 (natBytes r) := ⟨[], tail, by simp, rfl⟩
  generalize natBytes r ++ tail = buf at hat ⊢
  rw [natBytes] at hat
  by_cases h1 : rbPortableSize r < rbCardinality r * 4 + 4
  · rw [if_pos h1] at hat
    have a1 := readLE_at hat.left (by decide)
    have a2 := hat.right' (leBytes_length 1 _)
    rw [Nat.zero_add] at a2
    rw [rbDeserialize, a1, ok_bind, if_neg (by decide), if_pos rfl, rbPortableDeserialize, rbPortableDeserializeSafe,
      raPortableDeserialize_at h a2 (by have := rbPortableSize_le h; rw [SIZE_MAX]; omega)]
    rfl
  · rw [if_neg h1] at hat
    have hnr : raHasRun r = false := hs.resolve_left h1
    have hc : rbCardinality r < 4294967296 := by
      have := rbPortableSize_le h; omega
    have a1 := readLE_at hat.left (by decide)
    have a2 := hat.right' (leBytes_length 1 _)
    rw [Nat.zero_add] at a2
    have a3 := readLE_at a2.left (by omega)
    have a4 := a2.right' (leBytes_length 4 _)
    have hlt : ∀ x ∈ vals r, x < 4294967296 := by
      intro x hx
      exact bhas_lt h ((memb_vals h x).1 hx)
    have a5 := deserAddLoop_at (vals r) (r := rbCreate) (ctx := none) hlt a4
    rw [natVals_length h] at a5
    have hs := rbAddManyLoop_spec (vals r) (r := rbCreate) trivial (CtxOK.none _) hlt
    rw [rbDeserialize, a1, ok_bind, if_pos rfl, a3, ok_bind, a5]
    congr 1
    refine bitmap_unique hs.1 h (rbAddManyLoop_noRun _ trivial (CtxOK.none _) hlt rfl) hnr fun x => ?_
    rw [hs.2, Bool.eq_iff_iff]
    simp [rbCreate, bhas_nil, memb_vals h]

/-! ### Writing -/

/-- The bytes of one bitmap. -/
def partBytes (portable : Bool) (b : Bitmap) : List UInt8 := if portable then serBytes b else natBytes b

/-- The bytes of one entry of the map. -/
def entryBytes (portable : Bool) (p : Nat × Bitmap) : List UInt8 := leBytes 4 p.1 ++ partBytes portable p.2

/-- The bytes of the map. -/
def mapBytes (portable : Bool) (m : Map64) : List UInt8 := leBytes 8 m.length ++ m.flatMap (entryBytes portable)

theorem binv_typed {b : Bitmap} (h : BInv b) : ∀ p ∈ b, CTyped p.2 := fun p hp => ((bp_iff.1 h).2.2 p hp).1.typed

theorem partBytes_length {b : Bitmap} (h : BInv b) (portable : Bool) :
    (partBytes portable b).length = roaringSize portable b := by
  cases portable
  · exact natBytes_length h
  · exact serBytes_length (binv_typed h)

theorem wst_fst (mem d : List UInt8) : (wst mem 0 d).1 = d ++ mem.drop d.length := by simp [wst]

theorem wst_snd (mem d : List UInt8) : (wst mem 0 d).2 = d.length := by simp [wst]

theorem drop_more (mem : List UInt8) (a b : Nat) : (mem.drop a).drop b = mem.drop (a + b) := by
  rw [List.drop_drop]

theorem roaringWrite_wst {mem d : List UInt8} {b : Bitmap} (h : BInv b) (portable : Bool)
    (hm : d.length + roaringSize portable b ≤ mem.length) :
    roaringWrite portable b (wst mem 0 d).1 (wst mem 0 d).2
      = .ok ((wst mem 0 (d ++ partBytes portable b)).1, roaringSize portable b) := by
  have hl : (wst mem 0 d).1.length = mem.length := by rw [wst_fst]; simp; omega
  have hp := partBytes_length h portable
  have e1 : (wst mem 0 d).1.take d.length = d := by rw [wst_fst, List.take_left']; rfl
  have e2 : (wst mem 0 d).1.drop d.length = mem.drop d.length := by rw [wst_fst, List.drop_left']; rfl
  have e3 : (wst mem 0 d).1.drop (d.length + roaringSize portable b) = mem.drop (d.length + roaringSize portable b) := by
    rw [← drop_more, e2, drop_more]
  rw [wst_snd]
  cases portable
  · unfold roaringWrite
    rw [if_neg (by decide), e2]
    have := rbSerialize_eq h (mem := mem.drop d.length) (by rw [List.length_drop]; simp [roaringSize] at hm; omega)
    rw [this, ok_bind, e1, wst_fst]
    simp only [pure_ok]
    rw [show roaringSize false b = rbSizeInBytes b from rfl, drop_more, List.length_append, hp,
      show roaringSize false b = rbSizeInBytes b from rfl, List.append_assoc]
    rfl
  · unfold roaringWrite
    rw [if_pos rfl, rbPortableSerialize_eq (binv_typed h) (by rw [hl]; exact hm), e1]
    rw [show rbPortableSize b = roaringSize true b from rfl, e3, wst_fst, List.length_append, hp]
    rfl

theorem m64WriteLoop_wst {portable : Bool} {mem : List UInt8} (m : Map64) : ∀ {d : List UInt8}, (∀ p ∈ m, BInv p.2) →
    d.length + (m.flatMap (entryBytes portable)).length ≤ mem.length →
    m64WriteLoop portable (wst mem 0 d) m = .ok (wst mem 0 (d ++ m.flatMap (entryBytes portable))) := by
  induction m with
  | nil => intro d _ _; simp [m64WriteLoop]
  | cons p t ih =>
    intro d hb hm
    obtain ⟨k, b⟩ := p
    have hbb : BInv b := hb (k, b) (by simp)
    have hp := partBytes_length hbb portable
    simp only [List.flatMap_cons, entryBytes, List.length_append, leBytes_length, hp] at hm
    have hm' : d.length + (4 + roaringSize portable b + (t.flatMap (entryBytes portable)).length) ≤ mem.length := hm
    unfold m64WriteLoop
    rw [put_wst (by rw [leBytes_length]; omega), ok_bind, roaringWrite_wst hbb portable (by
      rw [List.length_append, leBytes_length]; omega), ok_bind]
    show m64WriteLoop portable ((wst mem 0 (d ++ leBytes 4 k ++ partBytes portable b)).1, (wst mem 0 (d ++ leBytes 4 k)).2 + roaringSize portable b) t = _
    have : (wst mem 0 (d ++ leBytes 4 k)).2 + roaringSize portable b = (wst mem 0 (d ++ leBytes 4 k ++ partBytes portable b)).2 := by
      rw [wst_snd, wst_snd, ← hp, List.length_append (as := d ++ leBytes 4 k)]
    rw [this]
    have := ih (d := d ++ leBytes 4 k ++ partBytes portable b) (fun p hp => hb p (by simp [hp])) (by
      simp only [List.length_append, leBytes_length, hp]; omega)
    rw [show ((wst mem 0 (d ++ leBytes 4 k ++ partBytes portable b)).1, (wst mem 0 (d ++ leBytes 4 k ++ partBytes portable b)).2)
      = wst mem 0 (d ++ leBytes 4 k ++ partBytes portable b) from rfl, this]
    simp [entryBytes]

theorem validM_inv {m : Map64} (h : ValidM m) : ∀ p ∈ m, BInv p.2 := fun p hp => (h.2 p hp).2.inv

theorem m64Write_eq {m : Map64} (h : ValidM m) (portable : Bool) {mem : List UInt8}
    (hm : (mapBytes portable m).length ≤ mem.length) :
    m64Write m portable mem = .ok (mapBytes portable m ++ mem.drop (mapBytes portable m).length, (mapBytes portable m).length) := by
  have e : (mem, 0) = wst mem 0 [] := by simp [wst]
  have hm' := hm
  unfold mapBytes at hm'
  rw [List.length_append, leBytes_length] at hm'
  unfold m64Write
  rw [e, put_wst (by rw [leBytes_length]; simp; omega), ok_bind, List.nil_append,
    m64WriteLoop_wst m (validM_inv h) (by rw [leBytes_length]; omega)]
  rw [show leBytes 8 m.length ++ m.flatMap (entryBytes portable) = mapBytes portable m from rfl]
  congr 1
  exact Prod.ext (wst_fst _ _) (wst_snd _ _)

theorem length_le_keys {m : Map64} (h : ValidM m) : m.length ≤ 4294967296 := by
  have h1 := h.1
  have h2 : ∀ x ∈ m.map (·.1), x < 4294967296 := by
    intro x hx
    obtain ⟨p, hp, rfl⟩ := List.mem_map.1 hx
    exact (h.2 p hp).1
  have : ∀ (n : Nat) (l : List Nat), l.Pairwise (· < ·) → (∀ x ∈ l, x < n) → l.length ≤ n := by
    intro n l hl hx
    rw [← sorted_length_ofList hl hx]; exact card_le _ _
  have := this _ _ h1 h2
  simpa using this

theorem m64Size_eq {m : Map64} (h : ValidM m) (portable : Bool) :
    m64SizeInBytes portable m = (mapBytes portable m).length % 18446744073709551616 := by
  have : ∀ (m : Map64), (∀ p ∈ m, BInv p.2) → ∀ a n : Nat, a = n % 18446744073709551616 →
      m.foldl (fun previous p => u64 ((previous : Int) + roaringSize portable p.2)) a =
        (n + (m.flatMap (entryBytes portable)).length - m.length * 4) % 18446744073709551616 := by
    intro m
    induction m with
    | nil => intro _ a n e; simp [e]
    | cons p t ih =>
      intro hb a n e
      have hp := partBytes_length (hb p (by simp)) portable
      rw [List.foldl_cons, ih (fun p hp => hb p (by simp [hp])) _ (n + roaringSize portable p.2) (by
        unfold u64; omega)]
      congr 1
      simp only [List.flatMap_cons, entryBytes, List.length_append, leBytes_length, hp, List.length_cons]
      have : t.length * 4 ≤ (t.flatMap (fun p => leBytes 4 p.1 ++ partBytes portable p.2)).length := by
        clear ih
        induction t with
        | nil => simp
        | cons q s ih =>
          have := ih fun p hp => hb p (by
            rcases List.mem_cons.1 hp with h | h
            · simp [h]
            · simp [h])
          simp only [List.flatMap_cons, List.length_append, leBytes_length, List.length_cons]
          omega
      rw [show entryBytes portable = fun p => leBytes 4 p.1 ++ partBytes portable p.2 from rfl]
      omega
  have := this m (validM_inv h) (u64 (8 + (m.length * 4 : Nat))) (8 + m.length * 4) (by unfold u64; omega)
  rw [m64SizeInBytes, this]
  congr 1
  rw [mapBytes, List.length_append, leBytes_length]
  omega

/-! ### Reading -/

/-- `emplaceOrInsert` of a key larger than those of the map. -/
theorem emplace_last {m : Map64} {k : Nat} {b : Bitmap} (h : ∀ p ∈ m, p.1 < k) : m64Emplace m k b = m ++ [(k, b)] := by
  unfold m64Emplace
  induction m with
  | nil => rfl
  | cons p t ih =>
    obtain ⟨k', b'⟩ := p
    have h1 : k' < k := h (k', b') (by simp)
    have h2 := ih fun p hp => h p (by simp [hp])
    unfold mapInsert
    rw [if_neg (by omega), if_neg (by omega)]
    simp only [List.cons_append, h2]

theorem drop_at {buf : List UInt8} {off : Nat} {x : List UInt8} (h : At buf off x) : ∃ tail, buf.drop off = x ++ tail := by
  obtain ⟨a, b, rfl, rfl⟩ := h
  exact ⟨b, by rw [List.drop_left' rfl]⟩

/-- What reading the bytes of a bitmap gives. -/
def ReadsAs (portable : Bool) (b b' : Bitmap) : Prop :=
  ∀ (buf : List UInt8) (off : Nat), At buf off (partBytes portable b) → roaringRead portable buf off = .ok b'

theorem readsAs_portable {b : Bitmap} (h : BInv b) : ReadsAs true b b := by
  intro buf off hat
  unfold roaringRead rbPortableDeserialize rbPortableDeserializeSafe
  rw [if_pos rfl, raPortableDeserialize_at h hat (by have := rbPortableSize_le h; rw [SIZE_MAX]; omega)]
  rfl

theorem readsAs_native {b : Bitmap} (h : BInv b) (hs : NativeStable b) : ReadsAs false b b := by
  intro buf off hat
  obtain ⟨tail, e⟩ := drop_at hat
  unfold roaringRead
  rw [if_neg (by decide), e]
  exact deserialize_stable h hs tail

theorem natBytes_tail {b : Bitmap} (h : BInv b) : ∃ b', BInv b' ∧ (∀ x, bhas b' x = bhas b x) ∧ ReadsAs false b b' := by
  by_cases hs : NativeStable b
  · exact ⟨b, h, fun _ => rfl, readsAs_native h hs⟩
  · have h1 : ¬ rbPortableSize b < rbCardinality b * 4 + 4 := fun e => hs (.inl e)
    obtain ⟨b', hb', hh, -⟩ := deserialize_at h []
    have : ∀ t, ∃ r', BInv r' ∧ (∀ x, bhas r' x = bhas b x) ∧ rbDeserialize (natBytes b ++ t) = .ok r' := fun t => by
      obtain ⟨r', a, b, c, _⟩ := deserialize_at h t
      exact ⟨r', a, b, c⟩
    -- the bitmap read does not depend on what follows
    have hlt : ∀ x ∈ vals b, x < 4294967296 := by
      intro x hx
      exact bhas_lt h ((memb_vals h x).1 hx)
    have hsp := rbAddManyLoop_spec (vals b) (r := rbCreate) trivial (CtxOK.none _) hlt
    refine ⟨rbAddManyLoop rbCreate none (vals b), hsp.1, ?_, ?_⟩
    · intro x
      rw [hsp.2, Bool.eq_iff_iff]
      simp [rbCreate, bhas_nil, memb_vals h]
    · intro buf off hat
      obtain ⟨tail, e⟩ := drop_at hat
      unfold roaringRead
      rw [if_neg (by decide), e]
      have hat : At (natBytes b ++ tail) 0 (natBytes b) := ⟨[], tail, by simp, rfl⟩
      show rbDeserialize (natBytes b ++ tail) = _
      generalize natBytes b ++ tail = buf at hat ⊢
      rw [natBytes, if_neg h1] at hat
      have hc : rbCardinality b < 4294967296 := by
        have := rbPortableSize_le h; omega
      have a1 := readLE_at hat.left (by decide)
      have a2 := hat.right' (leBytes_length 1 _)
      rw [Nat.zero_add] at a2
      have a3 := readLE_at a2.left (by omega)
      have a4 := a2.right' (leBytes_length 4 _)
      have a5 := deserAddLoop_at (vals b) (r := rbCreate) (ctx := none) hlt a4
      rw [natVals_length h] at a5
      rw [rbDeserialize, a1, ok_bind, if_pos rfl, a3, ok_bind, a5]

/-- Two maps with the same keys whose bitmaps are read one as the other, with the same size except for the last one. -/
def ReadsList (portable : Bool) : Map64 → Map64 → Prop
  | [], [] => True
  | (k, b) :: t, (k', b') :: t' => k = k' ∧ ReadsAs portable b b' ∧ (t = [] ∨ roaringSize portable b = roaringSize portable b') ∧
      ReadsList portable t t'
  | _, _ => False

theorem m64ReadLoop_at {portable : Bool} {buf : List UInt8} (m : Map64) : ∀ {m' acc : Map64} {off : Nat}, ValidM m →
    ReadsList portable m m' → (∀ p ∈ acc, ∀ q ∈ m, p.1 < q.1) → At buf off (m.flatMap (entryBytes portable)) →
    m64ReadLoop portable buf m.length off acc = .ok (acc ++ m') := by
  induction m with
  | nil =>
    intro m' acc off _ hr _ _
    cases m' with
    | nil => simp [m64ReadLoop]
    | cons q t => cases hr
  | cons p t ih =>
    intro m' acc off hv hr ha hat
    obtain ⟨k, b⟩ := p
    cases m' with
    | nil => cases hr
    | cons q t' =>
      obtain ⟨k', b'⟩ := q
      obtain ⟨rfl, h1, h2, h3⟩ := hr
      obtain ⟨hk, hb, hlt, hvt⟩ := (minv_cons (k := k)).1 hv
      rw [List.flatMap_cons, entryBytes] at hat
      have hp := partBytes_length hb.inv portable
      have a1 := readLE_at hat.left.left (by simpa using hk)
      have a2 := hat.left.right' (leBytes_length 4 _)
      have a3 := hat.right' (n := 4 + roaringSize portable b) (by simp [leBytes_length, hp])
      rw [List.length_cons]
      unfold m64ReadLoop
      rw [a1, ok_bind]
      dsimp only
      rw [h1 _ _ a2, ok_bind, emplace_last fun p hp => ha p hp (k, b) (by simp)]
      rcases h2 with rfl | h2
      · cases t' with
        | nil => simp [m64ReadLoop]
        | cons q s => cases h3
      · rw [← h2, show off + 4 + roaringSize portable b = off + (4 + roaringSize portable b) by omega,
          ih hvt h3 (by
            intro p hp q hq
            rcases List.mem_append.1 hp with hp | hp
            · exact ha p hp q (by simp [hq])
            · rw [List.mem_singleton.1 hp]; exact hlt q hq) a3]
        simp

theorem m64Read_at {portable : Bool} {m m' : Map64} (h : ValidM m) (hr : ReadsList portable m m') (tail : List UInt8) :
    m64Read portable (mapBytes portable m ++ tail) = .ok m' := by
  have hat : At (mapBytes portable m ++ tail) 0 (mapBytes portable m) := ⟨[], tail, by simp, rfl⟩
  generalize mapBytes portable m ++ tail = buf at hat ⊢
  rw [mapBytes] at hat
  have hl := length_le_keys h
  have a1 := readLE_at hat.left (by omega)
  have a2 := hat.right' (leBytes_length 8 _)
  unfold m64Read
  rw [a1, ok_bind, m64ReadLoop_at m h hr (by simp) (by simpa using a2)]
  simp

theorem readsList_refl {portable : Bool} {m : Map64} (h : ∀ p ∈ m, ReadsAs portable p.2 p.2) : ReadsList portable m m := by
  induction m with
  | nil => trivial
  | cons p t ih => exact ⟨rfl, h p (by simp), .inr rfl, ih fun p hp => h p (by simp [hp])⟩

theorem readsList_native {m : Map64} (h : ValidM m) (hs : ∀ p ∈ m.dropLast, NativeStable p.2) :
    ∃ m', ReadsList false m m' ∧ ValidM m' ∧ m'.map (·.1) = m.map (·.1) ∧ ∀ k v, mhas m' k v = mhas m k v := by
  induction m with
  | nil => exact ⟨[], trivial, .nil, rfl, fun _ _ => rfl⟩
  | cons p t ih =>
    obtain ⟨k, b⟩ := p
    obtain ⟨hk, hb, hlt, hvt⟩ := (minv_cons (k := k)).1 h
    cases t with
    | nil =>
      obtain ⟨b', hb', hh, hr⟩ := natBytes_tail hb.inv
      refine ⟨[(k, b')], ⟨rfl, hr, .inl rfl, trivial⟩, (minv_cons (k := k)).2 ⟨hk, hb'.valid, by simp, .nil⟩, rfl, fun j v => ?_⟩
      simp only [mhas, mapAt_cons]
      split
      · rw [rbContains_eq hb', rbContains_eq hb.inv, hh]
      · rfl
    | cons q s =>
      have hst : NativeStable b := hs (k, b) (by simp [List.dropLast])
      obtain ⟨m', h1, h2, h3, h4⟩ := ih hvt (fun p hp => hs p (by simp [List.dropLast]; right; exact hp))
      refine ⟨(k, b) :: m', ⟨rfl, readsAs_native hb.inv hst, .inr rfl, h1⟩, (minv_cons (k := k)).2 ⟨hk, hb, ?_, h2⟩, ?_, fun j v => ?_⟩
      · intro p hp
        have : p.1 ∈ (q :: s).map (·.1) := h3 ▸ List.mem_map.2 ⟨p, hp, rfl⟩
        obtain ⟨x, hx, e⟩ := List.mem_map.1 this
        have := hlt x hx
        omega
      · rw [List.map_cons, List.map_cons, h3]
      · simp only [mhas, mapAt_cons]
        split
        · rfl
        · exact h4 j v

end CRoaring
