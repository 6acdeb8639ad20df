import Verif.Lemmas.ArtNode
/-
The radix tree: searches, insertions, removals and stores in terms of the leaves of the tree.
-/
set_option linter.unusedSimpArgs false
set_option linter.unusedVariables false
namespace CRoaring
open Spec

/-! ### Keys as numbers -/

/-- The number whose big-endian bytes are `k`. -/
def keyNum (k : List Nat) : Nat := k.foldl (fun a b => a * 256 + b) 0

def Bytes (k : List Nat) : Prop := ∀ b ∈ k, b < 256

/-- Six bytes. -/
structure IsKey (k : List Nat) : Prop where
  len : k.length = 6
  byte : Bytes k

theorem foldl_keyNum (q : List Nat) (a : Nat) :
    q.foldl (fun a b => a * 256 + b) a = a * 256 ^ q.length + keyNum q := by
  induction q generalizing a with
  | nil => simp [keyNum]
  | cons b t ih =>
    have h1 := ih (a * 256 + b)
    have h2 := ih b
    have h3 : keyNum (b :: t) = b * 256 ^ t.length + keyNum t := by
      simp only [keyNum, List.foldl_cons, Nat.zero_mul, Nat.zero_add] at h2 ⊢; exact h2
    rw [List.foldl_cons, h1, h3, List.length_cons, Nat.pow_succ, Nat.add_mul, Nat.mul_assoc,
      Nat.mul_comm 256 (256 ^ t.length), Nat.add_assoc]

theorem keyNum_append (p q : List Nat) : keyNum (p ++ q) = keyNum p * 256 ^ q.length + keyNum q := by
  rw [keyNum, List.foldl_append]; exact foldl_keyNum q _

theorem keyNum_cons (b : Nat) (t : List Nat) : keyNum (b :: t) = b * 256 ^ t.length + keyNum t := by
  have := keyNum_append [b] t
  simpa [keyNum] using this

theorem keyNum_lt {q : List Nat} (h : Bytes q) : keyNum q < 256 ^ q.length := by
  induction q with
  | nil => simp [keyNum]
  | cons b t ih =>
    have ih := ih (fun x hx => h x (List.mem_cons_of_mem _ hx))
    have hb := h b List.mem_cons_self
    rw [keyNum_cons, List.length_cons, Nat.pow_succ, Nat.mul_comm _ 256]
    have : (b + 1) * 256 ^ t.length ≤ 256 * 256 ^ t.length := Nat.mul_le_mul_right _ (by omega)
    rw [Nat.add_mul, Nat.one_mul] at this
    omega

theorem keyNum_inj {p q : List Nat} (hp : Bytes p) (hq : Bytes q) (hl : p.length = q.length) (h : keyNum p = keyNum q) :
    p = q := by
  induction p generalizing q with
  | nil => cases q with
    | nil => rfl
    | cons => simp at hl
  | cons a s ih =>
    cases q with
    | nil => simp at hl
    | cons b t =>
      simp only [List.length_cons, Nat.add_right_cancel_iff] at hl
      have hs : Bytes s := fun x hx => hp x (List.mem_cons_of_mem _ hx)
      have ht : Bytes t := fun x hx => hq x (List.mem_cons_of_mem _ hx)
      rw [keyNum_cons, keyNum_cons, hl] at h
      have h1 := keyNum_lt hs
      have h2 := keyNum_lt ht
      rw [hl] at h1
      have hab : a = b := by
        have e1 : (a * 256 ^ t.length + keyNum s) / 256 ^ t.length = a := by
          rw [Nat.add_comm, Nat.add_mul_div_right _ _ (by omega), Nat.div_eq_of_lt h1, Nat.zero_add]
        have e2 : (b * 256 ^ t.length + keyNum t) / 256 ^ t.length = b := by
          rw [Nat.add_comm, Nat.add_mul_div_right _ _ (by omega), Nat.div_eq_of_lt h2, Nat.zero_add]
        rw [← e1, ← e2, h]
      subst hab
      rw [ih hs ht hl (by omega)]

/-- The numbers of the keys with prefix `p` are those from `lo p` to below `hi p`. -/
def lo (p : List Nat) : Nat := keyNum p * 256 ^ (6 - p.length)
def hi (p : List Nat) : Nat := (keyNum p + 1) * 256 ^ (6 - p.length)

theorem lo_lt_hi (p : List Nat) : lo p < hi p := by
  unfold lo hi
  rw [Nat.add_mul, Nat.one_mul]
  have : 0 < 256 ^ (6 - p.length) := Nat.pow_pos (by omega)
  omega

theorem pow_split {p q : List Nat} (hl : (p ++ q).length ≤ 6) :
    256 ^ (6 - p.length) = 256 ^ q.length * 256 ^ (6 - (p ++ q).length) := by
  rw [← Nat.pow_add]
  congr 1
  simp only [List.length_append] at hl ⊢; omega

theorem lo_append {p q : List Nat} (hl : (p ++ q).length ≤ 6) (hq : Bytes q) :
    lo p ≤ lo (p ++ q) ∧ hi (p ++ q) ≤ hi p := by
  unfold lo hi
  rw [pow_split hl, keyNum_append]
  have := keyNum_lt hq
  constructor
  · rw [← Nat.mul_assoc]; exact Nat.mul_le_mul_right _ (by omega)
  · rw [← Nat.mul_assoc]
    refine Nat.mul_le_mul_right _ ?_
    rw [Nat.add_mul, Nat.one_mul]; omega

theorem hi_le_lo {p : List Nat} {c c' : Nat} (hc : c < c') : hi (p ++ [c]) ≤ lo (p ++ [c']) := by
  unfold lo hi
  rw [keyNum_append, keyNum_append]
  simp only [List.length_append, List.length_singleton]
  refine Nat.mul_le_mul_right _ ?_
  simp [keyNum]; omega

theorem lo_key {k : List Nat} (h : k.length = 6) : lo k = keyNum k := by simp [lo, h]
theorem hi_key {k : List Nat} (h : k.length = 6) : hi k = keyNum k + 1 := by simp [hi, h]

theorem prefix_interval {k p : List Nat} (hk : IsKey k) (hp : p <+: k) : lo p ≤ keyNum k ∧ keyNum k < hi p := by
  obtain ⟨q, rfl⟩ := hp
  have hq : Bytes q := fun b hb => hk.byte b (List.mem_append_right _ hb)
  have := lo_append (p := p) (q := q) (by rw [hk.len]; omega) hq
  rw [lo_key hk.len, hi_key hk.len] at this
  omega

theorem interval_prefix {k p : List Nat} (hk : IsKey k) (hp : Bytes p) (hl : p.length ≤ 6)
    (h1 : lo p ≤ keyNum k) (h2 : keyNum k < hi p) : p <+: k := by
  have e := List.take_append_drop p.length k
  have hlen : (k.take p.length).length = p.length := by rw [List.length_take, hk.len]; omega
  have hb : Bytes (k.take p.length) := fun b hb => hk.byte b (List.mem_of_mem_take hb)
  have := prefix_interval hk (List.take_prefix p.length k)
  have : k.take p.length = p := by
    apply keyNum_inj hb hp hlen
    unfold lo hi at *
    rw [hlen] at this
    rcases Nat.lt_trichotomy (keyNum (k.take p.length)) (keyNum p) with h | h | h
    · have := Nat.mul_le_mul_right (256 ^ (6 - p.length)) (show keyNum (k.take p.length) + 1 ≤ keyNum p by omega)
      omega
    · exact h
    · have := Nat.mul_le_mul_right (256 ^ (6 - p.length)) (show keyNum p + 1 ≤ keyNum (k.take p.length) by omega)
      omega
  rw [← this]; exact List.take_prefix _ _

theorem memcmp_spec {a b : List Nat} (hl : a.length = b.length) (ha : Bytes a) (hb : Bytes b) :
    (memcmp a b = 0 ↔ a = b) ∧ (memcmp a b < 0 ↔ keyNum a < keyNum b) ∧ (memcmp a b > 0 ↔ keyNum b < keyNum a) := by
  induction a generalizing b with
  | nil => cases b with
    | nil => simp [memcmp]
    | cons => simp at hl
  | cons x s ih =>
    cases b with
    | nil => simp at hl
    | cons y t =>
      simp only [List.length_cons, Nat.add_right_cancel_iff] at hl
      have hs : Bytes s := fun z hz => ha z (List.mem_cons_of_mem _ hz)
      have ht : Bytes t := fun z hz => hb z (List.mem_cons_of_mem _ hz)
      have h1 := keyNum_lt hs
      have h2 := keyNum_lt ht
      rw [hl] at h1
      rw [keyNum_cons, keyNum_cons, hl]
      simp only [memcmp]
      rcases Nat.lt_trichotomy x y with h | h | h
      · have := Nat.mul_le_mul_right (256 ^ t.length) (show x + 1 ≤ y by omega)
        rw [Nat.add_mul, Nat.one_mul] at this
        rw [if_pos h]
        refine ⟨⟨by omega, fun e => ?_⟩, ⟨fun _ => by omega, fun _ => by omega⟩, ⟨by omega, by omega⟩⟩
        simp only [List.cons.injEq] at e; omega
      · subst h
        rw [if_neg (by omega), if_neg (by omega)]
        obtain ⟨i1, i2, i3⟩ := ih hl hs ht
        refine ⟨by rw [i1]; simp, by rw [i2]; omega, by rw [i3]; omega⟩
      · have := Nat.mul_le_mul_right (256 ^ t.length) (show y + 1 ≤ x by omega)
        rw [Nat.add_mul, Nat.one_mul] at this
        rw [if_neg (by omega), if_pos h]
        refine ⟨⟨by omega, fun e => ?_⟩, ⟨by omega, by omega⟩, ⟨fun _ => by omega, fun _ => by omega⟩⟩
        simp only [List.cons.injEq] at e; omega

/-! ### Common prefixes -/

theorem commonLen_spec (a b : List Nat) : commonLen a b ≤ a.length ∧ commonLen a b ≤ b.length ∧
    a.take (commonLen a b) = b.take (commonLen a b) ∧
    (commonLen a b < a.length → commonLen a b < b.length → a.getD (commonLen a b) 0 ≠ b.getD (commonLen a b) 0) := by
  induction a generalizing b with
  | nil => simp [commonLen]
  | cons x s ih =>
    cases b with
    | nil => simp [commonLen]
    | cons y t =>
      simp only [commonLen]
      by_cases h : x = y
      · subst h
        obtain ⟨h1, h2, h3, h4⟩ := ih t
        simp only [ne_eq, not_true_eq_false, if_false, List.length_cons, List.take_succ_cons, List.getD_cons_succ]
        refine ⟨by omega, by omega, by rw [h3], fun h5 h6 => h4 (by omega) (by omega)⟩
      · simp [h]

theorem commonLen_eq_left {a b : List Nat} : commonLen a b = a.length ↔ a <+: b := by
  obtain ⟨h1, h2, h3, h4⟩ := commonLen_spec a b
  constructor
  · intro e
    rw [e, List.take_length] at h3
    rw [h3]; exact List.take_prefix _ _
  · rintro ⟨c, rfl⟩
    clear h1 h2 h3 h4
    induction a with
    | nil => simp [commonLen]
    | cons x s ih => simp [commonLen, ih]

theorem artCommonPrefix_pfx {pfx key : List Nat} {depth : Nat} (hk : key.length = 6) :
    artCommonPrefix pfx 0 pfx.length key depth KEY_BYTES = commonLen pfx (key.drop depth) := by
  simp only [artCommonPrefix, List.drop_zero, Nat.sub_zero, List.take_length, KEY_BYTES]
  rw [List.take_of_length_le (by rw [List.length_drop, hk]; omega)]

theorem artCommonPrefix_keys {k key : List Nat} {d : Nat} (h1 : k.length = 6) (h2 : key.length = 6) :
    artCommonPrefix k d KEY_BYTES key d KEY_BYTES = commonLen (k.drop d) (key.drop d) := by
  simp only [artCommonPrefix, KEY_BYTES]
  rw [List.take_of_length_le (by rw [List.length_drop, h1]; omega), List.take_of_length_le (by rw [List.length_drop, h2]; omega)]

theorem artCommonPrefix_full {k key : List Nat} (h1 : k.length = 6) (h2 : key.length = 6) :
    artCommonPrefix k 0 KEY_BYTES key 0 KEY_BYTES = KEY_BYTES ↔ k = key := by
  rw [artCommonPrefix_keys h1 h2, List.drop_zero, List.drop_zero]
  constructor
  · intro e
    have : commonLen k key = k.length := by rw [h1]; exact e
    have := commonLen_eq_left.1 this
    exact this.eq_of_length (by omega)
  · rintro rfl
    have := commonLen_eq_left.2 (List.prefix_refl k)
    rw [h1] at this; exact this

theorem take_snoc {key : List Nat} {d : Nat} (h : d < key.length) : key.take d ++ [key.getD d 0] = key.take (d + 1) := by
  rw [List.take_add_one, List.getD, List.getElem?_eq_getElem h]; rfl

theorem prefix_take {p k : List Nat} (h : p <+: k) : k.take p.length = p := by
  obtain ⟨q, rfl⟩ := h; simp

theorem append_drop_take {p k : List Nat} (h : p <+: k) (m : Nat) : p ++ (k.drop p.length).take m = k.take (p.length + m) := by
  obtain ⟨q, rfl⟩ := h
  rw [List.drop_left, List.take_append, List.take_of_length_le (Nat.le_add_right _ _), Nat.add_sub_cancel_left]

theorem getD_drop (k : List Nat) (d i : Nat) : (k.drop d).getD i 0 = k.getD (d + i) 0 := by
  simp [List.getD, List.getElem?_drop]

theorem getD_byte {k : List Nat} (h : Bytes k) (i : Nat) : k.getD i 0 < 256 := by
  rcases Nat.lt_or_ge i k.length with hl | hg
  · rw [List.getD, List.getElem?_eq_getElem hl]; exact h _ (List.getElem_mem hl)
  · rw [getD_ge _ hg]; omega

theorem prefix_append_drop {path pfx k : List Nat} (hp : path <+: k) : pfx <+: k.drop path.length ↔ path ++ pfx <+: k := by
  obtain ⟨q, rfl⟩ := hp
  rw [List.drop_left, List.prefix_append_right_inj]

theorem snoc_prefix {p k : List Nat} (hp : p <+: k) (hl : p.length < k.length) : p ++ [k.getD p.length 0] <+: k := by
  have h1 := prefix_take hp
  have := take_snoc hl
  rw [h1] at this
  rw [this]; exact List.take_prefix _ _

theorem snoc_prefix_iff {p k : List Nat} {c : Nat} (hl : p.length < k.length) :
    p ++ [c] <+: k ↔ p <+: k ∧ k.getD p.length 0 = c := by
  constructor
  · intro h
    have hp : p <+: k := (List.prefix_append p [c]).trans h
    refine ⟨hp, ?_⟩
    have h1 := snoc_prefix hp hl
    have := List.prefix_of_prefix_length_le h h1 (by simp)
    have := this.eq_of_length (by simp)
    simpa using this.symm
  · rintro ⟨hp, rfl⟩
    exact snoc_prefix hp hl

/-! ### Leaves and the invariant -/

section
variable {V : Type}

/-- `t` has a leaf with key `k` and value `v`. -/
inductive Has : Art V → List Nat → V → Prop
  | leaf (k : List Nat) (v : V) : Has (.leaf k v) k v
  | inner {pfx : List Nat} {n : Node (Art V)} {c : Nat} {t : Art V} {k : List Nat} {v : V}
      (hf : n.find c = some t) (h : Has t k v) : Has (.inner pfx n) k v

/-- The tree below a node that is reached by the key bytes `path`. -/
inductive Inv : List Nat → Art V → Prop
  | leaf {path k : List Nat} {v : V} (hk : IsKey k) (hp : path <+: k) : Inv path (.leaf k v)
  | inner {path pfx : List Nat} {n : Node (Art V)} (hn : KOk n) (hl : path.length + pfx.length < 6) (hb : Bytes pfx)
      (hc : ∀ c t, n.find c = some t → Inv (path ++ pfx ++ [c]) t) : Inv path (.inner pfx n)

theorem Inv.key {path : List Nat} {t : Art V} (hi : Inv path t) {k : List Nat} {v : V} (h : Has t k v) :
    IsKey k ∧ path <+: k := by
  induction h generalizing path with
  | leaf k v => cases hi with | leaf hk hp => exact ⟨hk, hp⟩
  | inner hf h ih =>
    cases hi with
    | inner hn hl hb hc =>
      obtain ⟨h1, h2⟩ := ih (hc _ _ hf)
      refine ⟨h1, List.IsPrefix.trans ?_ h2⟩
      rw [List.append_assoc]; exact List.prefix_append _ _

theorem Inv.nonempty {path : List Nat} {t : Art V} (hi : Inv path t) : ∃ k v, Has t k v := by
  induction hi with
  | leaf hk hp => exact ⟨_, _, .leaf _ _⟩
  | inner hn hl hb hc ih =>
    obtain ⟨c, x, hx⟩ := hn.exists
    obtain ⟨k, v, h⟩ := ih c x hx
    exact ⟨k, v, .inner hx h⟩

theorem Inv.path_ok {path : List Nat} {t : Art V} (hi : Inv path t) : path.length ≤ 6 ∧ Bytes path := by
  obtain ⟨k, v, h⟩ := hi.nonempty
  obtain ⟨h1, h2⟩ := hi.key h
  refine ⟨by have := h2.length_le; rw [h1.len] at this; exact this, fun b hb => h1.byte b (h2.subset hb)⟩

theorem has_leaf {k k' : List Nat} {v v' : V} : Has (.leaf k v) k' v' ↔ k' = k ∧ v' = v := by
  constructor
  · intro h; cases h; exact ⟨rfl, rfl⟩
  · rintro ⟨rfl, rfl⟩; exact .leaf _ _

theorem has_inner {pfx : List Nat} {n : Node (Art V)} {k : List Nat} {v : V} :
    Has (.inner pfx n) k v ↔ ∃ c t, n.find c = some t ∧ Has t k v := by
  constructor
  · intro h; cases h with | inner hf h => exact ⟨_, _, hf, h⟩
  · rintro ⟨c, t, hf, h⟩; exact .inner hf h

/-- Within an inner node, the key decides the child. -/
theorem Inv.has_child {path pfx : List Nat} {n : Node (Art V)} (hi : Inv path (.inner pfx n)) {k : List Nat} {v : V}
    (hk : IsKey k) : Has (.inner pfx n) k v ↔
      path ++ pfx <+: k ∧ ∃ t, n.find (k.getD (path.length + pfx.length) 0) = some t ∧ Has t k v := by
  cases hi with
  | inner hn hl hb hc =>
    rw [has_inner]
    constructor
    · rintro ⟨c, t, hf, h⟩
      have hp := ((hc c t hf).key h).2
      rw [snoc_prefix_iff (by rw [List.length_append, hk.len]; exact hl), List.length_append] at hp
      exact ⟨hp.1, t, by rw [hp.2]; exact hf, h⟩
    · rintro ⟨_, t, hf, h⟩
      exact ⟨_, t, hf, h⟩

theorem Has.unique {t : Art V} {path : List Nat} (hi : Inv path t) {k : List Nat} {v w : V} (h1 : Has t k v) (h2 : Has t k w) :
    v = w := by
  have hk := (hi.key h1).1
  induction hi with
  | leaf => rw [has_leaf] at h1 h2; rw [h1.2, h2.2]
  | inner hn hl hb hc ih =>
    have hi := Inv.inner hn hl hb hc
    obtain ⟨_, t1, f1, h1⟩ := (hi.has_child hk).1 h1
    obtain ⟨_, t2, f2, h2⟩ := (hi.has_child hk).1 h2
    rw [f1] at f2; cases f2
    exact ih _ _ f1 h1 h2

/-! ### Search -/

theorem same_key {path key lkey : List Nat} (hk : IsKey key) (hk' : IsKey lkey) (hp : path <+: key) (hp' : path <+: lkey)
    (hd : path.length ≥ KEY_BYTES) : lkey = key := by
  have hd : path.length ≥ 6 := hd
  have e1 := hp'.eq_of_length (by have := hp'.length_le; rw [hk'.len] at this ⊢; omega)
  have e2 := hp.eq_of_length (by have := hp.length_le; rw [hk.len] at this ⊢; omega)
  rw [← e1, ← e2]

theorem leafFind {path key lkey : List Nat} {lval : V} (fuel : Nat) (hk : IsKey key) (hk' : IsKey lkey)
    (hp : path <+: key) (hp' : path <+: lkey) (v : V) :
    artFindAt fuel (.leaf lkey lval) key path.length = some v ↔ Has (.leaf lkey lval) key v := by
  have e : artFindAt fuel (.leaf lkey lval) key path.length = if lkey = key then some lval else none := by
    unfold artFindAt
    split
    · rw [if_pos (same_key hk hk' hp hp' (by assumption))]
    · by_cases he : artCommonPrefix lkey 0 KEY_BYTES key 0 KEY_BYTES = KEY_BYTES
      · rw [if_pos he, if_pos ((artCommonPrefix_full hk'.len hk.len).1 he)]
      · rw [if_neg he, if_neg (fun e => he ((artCommonPrefix_full hk'.len hk.len).2 e))]
  rw [e, has_leaf]
  by_cases h : lkey = key
  · rw [if_pos h]; simp [h]; exact eq_comm
  · rw [if_neg h]; simp; intro e; exact absurd e.symm h

theorem artFindAt_spec (fuel : Nat) {t : Art V} {path key : List Nat} (hi : Inv path t) (hk : IsKey key)
    (hp : path <+: key) (hf : 6 ≤ fuel + path.length) (v : V) :
    artFindAt fuel t key path.length = some v ↔ Has t key v := by
  induction fuel generalizing t path with
  | zero =>
    cases hi with
    | leaf hk' hp' => exact leafFind 0 hk hk' hp hp' v
    | inner hn hl => omega
  | succ fuel ih =>
    cases hi with
    | leaf hk' hp' => exact leafFind _ hk hk' hp hp' v
    | @inner _ pfx n hn hl hb hc =>
      have hi := Inv.inner hn hl hb hc
      rw [hi.has_child hk]
      simp only [artFindAt]
      rw [artCommonPrefix_pfx hk.len]
      by_cases he : commonLen pfx (key.drop path.length) = pfx.length
      · rw [if_neg (by simpa using he)]
        rw [commonLen_eq_left, prefix_append_drop hp] at he
        cases hx : n.find (key.getD (path.length + pfx.length) 0) with
        | none => simp
        | some child =>
          simp only [Option.some.injEq, exists_eq_left', he, true_and]
          have := ih (hc _ _ hx) (by
            have := snoc_prefix he (by rw [List.length_append, hk.len]; exact hl)
            rw [List.length_append] at this; exact this) (by simp only [List.length_append, List.length_singleton]; omega)
          simp only [List.length_append, List.length_singleton] at this
          rw [← Nat.add_assoc]; exact this
      · rw [if_pos he]
        rw [commonLen_eq_left, prefix_append_drop hp] at he
        simp [he]

/-! ### Insertion -/

theorem Inv.trim {path pfx : List Nat} {n : Node (Art V)} (hi : Inv path (.inner pfx n)) {m : Nat} (hm : m < pfx.length) :
    Inv (path ++ pfx.take m ++ [pfx.getD m 0]) (.inner (pfx.drop (m + 1)) n) := by
  cases hi with
  | inner hn hl hb hc =>
    have e : path ++ pfx.take m ++ [pfx.getD m 0] = path ++ pfx.take (m + 1) := by
      rw [List.append_assoc, take_snoc hm]
    rw [e]
    refine .inner hn ?_ (fun b h => hb b (List.mem_of_mem_drop h)) (fun c t hf => ?_)
    · simp only [List.length_append, List.length_take, List.length_drop]; omega
    · rw [List.append_assoc path, List.take_append_drop]; exact hc c t hf

theorem leafInsert {path key lkey : List Nat} {lval val : V} (fuel : Nat) (hk : IsKey key) (hk' : IsKey lkey)
    (hp : path <+: key) (hp' : path <+: lkey) (hne : lkey ≠ key) :
    Inv path (artInsertAt fuel (.leaf lkey lval) key path.length val) ∧
    ∀ k v, Has (artInsertAt fuel (.leaf lkey lval) key path.length val) k v ↔
      Has (.leaf lkey lval) k v ∨ (k = key ∧ v = val) := by
  have e : artInsertAt fuel (.leaf lkey lval) key path.length val =
      let m := commonLen (lkey.drop path.length) (key.drop path.length)
      .inner ((key.drop path.length).take m) (((Node.n4 []).insert (.leaf lkey lval) (lkey.getD (path.length + m) 0)).insert
        (.leaf key val) (key.getD (path.length + m) 0)) := by
    cases fuel <;> simp only [artInsertAt, artCommonPrefix_keys hk'.len hk.len]
  rw [e]
  generalize hm : commonLen (lkey.drop path.length) (key.drop path.length) = m
  obtain ⟨c1, c2, c3, c4⟩ := commonLen_spec (lkey.drop path.length) (key.drop path.length)
  rw [hm] at c1 c2 c3 c4
  simp only [List.length_drop, hk'.len, hk.len] at c1 c2 c4
  have hlt : path.length + m < 6 := by
    rcases Nat.lt_or_ge (path.length + m) 6 with h | h
    · exact h
    · exfalso; apply hne
      rw [List.take_of_length_le (by rw [List.length_drop, hk'.len]; omega),
        List.take_of_length_le (by rw [List.length_drop, hk.len]; omega)] at c3
      rw [← List.take_append_drop path.length lkey, ← List.take_append_drop path.length key, c3, prefix_take hp, prefix_take hp']
  have hchunk := c4 (by omega) (by omega)
  rw [getD_drop, getD_drop] at hchunk
  obtain ⟨hok, hfind⟩ := two_kids (a := Art.leaf lkey lval) (b := Art.leaf key val)
    (getD_byte hk'.byte (path.length + m)) (getD_byte hk.byte (path.length + m)) hchunk
  have hpath : path ++ (key.drop path.length).take m = key.take (path.length + m) := append_drop_take hp m
  have hpath' : path ++ (key.drop path.length).take m = lkey.take (path.length + m) := by
    rw [← append_drop_take hp' m, c3]
  simp only
  constructor
  · refine .inner hok (by rw [List.length_take, List.length_drop, hk.len]; omega)
      (fun b hb => hk.byte b (List.mem_of_mem_drop (List.mem_of_mem_take hb))) (fun c t hct => ?_)
    rw [hfind] at hct
    split at hct
    · cases hct
      refine .leaf hk ?_
      rw [hpath]; subst_vars
      rw [take_snoc (by rw [hk.len]; exact hlt)]; exact List.take_prefix _ _
    · split at hct
      · cases hct
        refine .leaf hk' ?_
        rw [hpath']; subst_vars
        rw [take_snoc (by rw [hk'.len]; exact hlt)]; exact List.take_prefix _ _
      · cases hct
  · intro k v
    rw [has_inner, has_leaf]
    constructor
    · rintro ⟨c, t, hct, h⟩
      rw [hfind] at hct
      split at hct
      · cases hct; rw [has_leaf] at h; exact Or.inr h
      · split at hct
        · cases hct; rw [has_leaf] at h; exact Or.inl h
        · cases hct
    · rintro (⟨rfl, rfl⟩ | ⟨rfl, rfl⟩)
      · exact ⟨_, .leaf k v, by rw [hfind, if_neg hchunk, if_pos rfl], .leaf _ _⟩
      · exact ⟨_, .leaf k v, by rw [hfind, if_pos rfl], .leaf _ _⟩

theorem artInsertAt_spec (fuel : Nat) {t : Art V} {path key : List Nat} (hi : Inv path t) (hk : IsKey key)
    (hp : path <+: key) (hf : 6 ≤ fuel + path.length) (hn : ∀ v, ¬ Has t key v) (val : V) :
    Inv path (artInsertAt fuel t key path.length val) ∧
    ∀ k v, Has (artInsertAt fuel t key path.length val) k v ↔ Has t k v ∨ (k = key ∧ v = val) := by
  induction fuel generalizing t path with
  | zero =>
    cases hi with
    | leaf hk' hp' => exact leafInsert 0 hk hk' hp hp' (fun e => hn _ (has_leaf.2 ⟨e.symm, rfl⟩))
    | inner h1 hl => omega
  | succ fuel ih =>
    cases hi with
    | leaf hk' hp' => exact leafInsert _ hk hk' hp hp' (fun e => hn _ (has_leaf.2 ⟨e.symm, rfl⟩))
    | @inner _ pfx n hok hl hb hc =>
      have hi := Inv.inner hok hl hb hc
      simp only [artInsertAt]
      rw [artCommonPrefix_pfx hk.len]
      generalize hm : commonLen pfx (key.drop path.length) = m
      obtain ⟨c1, c2, c3, c4⟩ := commonLen_spec pfx (key.drop path.length)
      rw [hm] at c1 c2 c3 c4
      simp only [List.length_drop, hk.len] at c2 c4
      by_cases he : m = pfx.length
      · rw [if_neg (by simpa using he)]
        have hpp : path ++ pfx <+: key := by
          rw [← prefix_append_drop hp, ← commonLen_eq_left, hm, he]
        have hsn : path ++ pfx ++ [key.getD (path.length + m) 0] <+: key := by
          have := snoc_prefix hpp (by rw [List.length_append, hk.len]; exact hl)
          rw [List.length_append] at this; rw [he]; exact this
        cases hx : n.find (key.getD (path.length + m) 0) with
        | none =>
          simp only
          obtain ⟨k1, k2⟩ := hok.insert (getD_byte hk.byte (path.length + m)) (.leaf key val) hx
          refine ⟨.inner k1 hl hb (fun c t hct => ?_), fun k v => ?_⟩
          · rw [k2] at hct
            split at hct
            · cases hct; rename_i e; rw [e]; exact .leaf hk hsn
            · exact hc c t hct
          · rw [has_inner, has_inner]
            constructor
            · rintro ⟨c, t, hct, h⟩
              rw [k2] at hct
              split at hct
              · cases hct; rw [has_leaf] at h; exact Or.inr h
              · exact Or.inl ⟨c, t, hct, h⟩
            · rintro (⟨c, t, hct, h⟩ | ⟨rfl, rfl⟩)
              · refine ⟨c, t, ?_, h⟩
                rw [k2, if_neg, hct]
                intro e; rw [e, hx] at hct; cases hct
              · exact ⟨_, _, by rw [k2, if_pos rfl], .leaf _ _⟩
        | some child =>
          simp only
          have hic := hc _ _ hx
          have hlen : (path ++ pfx ++ [key.getD (path.length + m) 0]).length = path.length + m + 1 := by
            simp only [List.length_append, List.length_singleton]; omega
          obtain ⟨i1, i2⟩ := ih hic hsn (by rw [hlen]; omega)
            (fun v h => hn v (.inner hx h))
          rw [hlen] at i1 i2
          obtain ⟨k1, k2⟩ := hok.replace hx (artInsertAt fuel child key (path.length + m + 1) val)
          refine ⟨.inner k1 hl hb (fun c t hct => ?_), fun k v => ?_⟩
          · rw [k2] at hct
            split at hct
            · cases hct; rename_i e; rw [e]; exact i1
            · exact hc c t hct
          · rw [has_inner, has_inner]
            constructor
            · rintro ⟨c, t, hct, h⟩
              rw [k2] at hct
              split at hct
              · cases hct
                rcases (i2 k v).1 h with h | h
                · exact Or.inl ⟨_, _, hx, h⟩
                · exact Or.inr h
              · exact Or.inl ⟨c, t, hct, h⟩
            · rintro (⟨c, t, hct, h⟩ | h)
              · by_cases e : c = key.getD (path.length + m) 0
                · subst e; rw [hx] at hct; cases hct
                  exact ⟨_, _, by rw [k2, if_pos rfl], (i2 k v).2 (Or.inl h)⟩
                · exact ⟨c, t, by rw [k2, if_neg e, hct], h⟩
              · exact ⟨_, _, by rw [k2, if_pos rfl], (i2 k v).2 (Or.inr h)⟩
      · rw [if_pos he]
        have hmlt : m < pfx.length := by omega
        have hlt : path.length + m < 6 := by omega
        have hchunk := c4 hmlt (by omega)
        rw [getD_drop] at hchunk
        obtain ⟨hok2, hfind⟩ := two_kids (a := Art.inner (pfx.drop (m + 1)) n) (b := Art.leaf key val)
          (getD_byte hb m) (getD_byte hk.byte (path.length + m)) hchunk
        rw [Nat.add_comm m path.length]
        have htrim := hi.trim hmlt
        constructor
        · refine .inner hok2 (by rw [List.length_take]; omega) (fun b h => hb b (List.mem_of_mem_take h)) (fun c t hct => ?_)
          rw [hfind] at hct
          split at hct
          · cases hct
            refine .leaf hk ?_
            rename_i e
            rw [e, c3, append_drop_take hp, take_snoc (by rw [hk.len]; exact hlt)]; exact List.take_prefix _ _
          · split at hct
            · cases hct; rename_i e; rw [e]; exact htrim
            · cases hct
        · intro k v
          rw [has_inner]
          have hmid : Has (.inner (pfx.drop (m + 1)) n) k v ↔ Has (.inner pfx n) k v := by rw [has_inner, has_inner]
          constructor
          · rintro ⟨c, t, hct, h⟩
            rw [hfind] at hct
            split at hct
            · cases hct; rw [has_leaf] at h; exact Or.inr h
            · split at hct
              · cases hct; exact Or.inl (hmid.1 h)
              · cases hct
          · rintro (h | ⟨rfl, rfl⟩)
            · exact ⟨_, _, by rw [hfind, if_neg hchunk, if_pos rfl], hmid.2 h⟩
            · exact ⟨_, _, by rw [hfind, if_pos rfl], .leaf _ _⟩

/-! ### Stores -/

/-- Replacing a child by a tree whose leaves differ only at `key`. -/
theorem replace_spec {path pfx : List Nat} {n : Node (Art V)} (hi : Inv path (.inner pfx n)) {c : Nat} {t t' : Art V}
    (hx : n.find c = some t) (ht : Inv (path ++ pfx ++ [c]) t') :
    Inv path (.inner pfx (n.replace c t')) ∧
    ∀ k v, Has (.inner pfx (n.replace c t')) k v ↔
      Has t' k v ∨ (∃ d s, d ≠ c ∧ n.find d = some s ∧ Has s k v) := by
  cases hi with
  | inner hn hl hb hc =>
    obtain ⟨k1, k2⟩ := hn.replace hx t'
    refine ⟨.inner k1 hl hb (fun d s hds => ?_), fun k v => ?_⟩
    · rw [k2] at hds
      split at hds
      · cases hds; rename_i e; rw [e]; exact ht
      · exact hc d s hds
    · rw [has_inner]
      constructor
      · rintro ⟨d, s, hds, h⟩
        rw [k2] at hds
        split at hds
        · cases hds; exact Or.inl h
        · exact Or.inr ⟨d, s, by assumption, hds, h⟩
      · rintro (h | ⟨d, s, hd, hds, h⟩)
        · exact ⟨c, t', by rw [k2, if_pos rfl], h⟩
        · exact ⟨d, s, by rw [k2, if_neg hd, hds], h⟩

theorem has_split {pfx : List Nat} {n : Node (Art V)} {c : Nat} {t : Art V} (hx : n.find c = some t) (k : List Nat) (v : V) :
    Has (.inner pfx n) k v ↔ Has t k v ∨ (∃ d s, d ≠ c ∧ n.find d = some s ∧ Has s k v) := by
  rw [has_inner]
  constructor
  · rintro ⟨d, s, hds, h⟩
    by_cases e : d = c
    · subst e; rw [hx] at hds; cases hds; exact Or.inl h
    · exact Or.inr ⟨d, s, e, hds, h⟩
  · rintro (h | ⟨d, s, _, hds, h⟩)
    · exact ⟨c, t, hx, h⟩
    · exact ⟨d, s, hds, h⟩

/-- The other children do not have a key that leads to child `c`. -/
theorem other_key {path pfx : List Nat} {n : Node (Art V)} (hi : Inv path (.inner pfx n)) {key : List Nat} (hk : IsKey key)
    {d : Nat} {s : Art V} (hd : d ≠ key.getD (path.length + pfx.length) 0) (hs : n.find d = some s) {v : V} : ¬ Has s key v := by
  intro h
  cases hi with
  | inner hn hl hb hc =>
    have := ((hc d s hs).key h).2
    rw [snoc_prefix_iff (by rw [List.length_append, hk.len]; exact hl), List.length_append] at this
    exact hd this.2.symm

theorem leafStore {path key lkey : List Nat} {lval val : V} (fuel : Nat) (hk : IsKey key) (hk' : IsKey lkey)
    (hp : path <+: key) (hp' : path <+: lkey) :
    artStoreAt fuel (.leaf lkey lval) key path.length val = if lkey = key then .leaf lkey val else .leaf lkey lval := by
  unfold artStoreAt
  split
  · rw [if_pos (same_key hk hk' hp hp' (by assumption))]
  · by_cases he : artCommonPrefix lkey 0 KEY_BYTES key 0 KEY_BYTES = KEY_BYTES
    · rw [if_pos he, if_pos ((artCommonPrefix_full hk'.len hk.len).1 he)]
    · rw [if_neg he, if_neg (fun e => he ((artCommonPrefix_full hk'.len hk.len).2 e))]

theorem artStoreAt_spec (fuel : Nat) {t : Art V} {path key : List Nat} (hi : Inv path t) (hk : IsKey key)
    (hp : path <+: key) (hf : 6 ≤ fuel + path.length) {w : V} (hw : Has t key w) (val : V) :
    Inv path (artStoreAt fuel t key path.length val) ∧
    ∀ k v, Has (artStoreAt fuel t key path.length val) k v ↔ if k = key then v = val else Has t k v := by
  have leaf_case : ∀ (fuel : Nat) {path : List Nat} {lkey : List Nat} {lval : V}, IsKey lkey → path <+: lkey → path <+: key →
      Has (.leaf lkey lval) key w → Inv path (artStoreAt fuel (.leaf lkey lval) key path.length val) ∧
      ∀ k v, Has (artStoreAt fuel (.leaf lkey lval) key path.length val) k v ↔
        if k = key then v = val else Has (.leaf lkey lval) k v := by
    intro fuel path lkey lval hk' hp' hp hw
    rw [has_leaf] at hw
    rw [leafStore fuel hk hk' hp hp', if_pos hw.1.symm]
    refine ⟨.leaf hk' hp', fun k v => ?_⟩
    rw [has_leaf, has_leaf, ← hw.1]
    by_cases e : k = key
    · simp [e]
    · simp [e]
  induction fuel generalizing t path with
  | zero =>
    cases hi with
    | leaf hk' hp' => exact leaf_case 0 hk' hp' hp hw
    | inner hn hl => omega
  | succ fuel ih =>
    cases hi with
    | leaf hk' hp' => exact leaf_case _ hk' hp' hp hw
    | @inner _ pfx n hn hl hb hc =>
      have hi := Inv.inner hn hl hb hc
      obtain ⟨hpp, child, hx, hwc⟩ := (hi.has_child hk).1 hw
      have hsn : path ++ pfx ++ [key.getD (path.length + pfx.length) 0] <+: key := by
        have := snoc_prefix hpp (by rw [List.length_append, hk.len]; exact hl)
        rw [List.length_append] at this; exact this
      have hlen : (path ++ pfx ++ [key.getD (path.length + pfx.length) 0]).length = path.length + (pfx.length + 1) := by
        simp only [List.length_append, List.length_singleton]; omega
      simp only [artStoreAt, hx]
      obtain ⟨i1, i2⟩ := ih (hc _ _ hx) hsn (by rw [hlen]; omega) hwc
      rw [hlen] at i1 i2
      obtain ⟨r1, r2⟩ := replace_spec hi hx i1
      refine ⟨r1, fun k v => ?_⟩
      rw [r2, i2, has_split hx]
      by_cases e : k = key
      · subst e
        simp only [if_true]
        constructor
        · rintro (h | ⟨d, s, hd, hds, h⟩)
          · exact h
          · exact absurd h (other_key hi hk hd hds)
        · exact Or.inl
      · simp only [if_neg e]

/-! ### Removal -/

/-- What is left of a node4 that has only one child left. -/
def collapse (pfx : List Nat) (d : Nat) : Art V → Art V
  | .leaf k v => .leaf k v
  | .inner p n => .inner (pfx ++ d :: p) n

theorem collapse_inv {path pfx : List Nat} {d : Nat} {t : Art V} (hb : Bytes pfx) (hd : d < 256)
    (h : Inv (path ++ pfx ++ [d]) t) : Inv path (collapse pfx d t) := by
  cases h with
  | leaf hk hp =>
    refine .leaf hk (List.IsPrefix.trans ?_ hp)
    rw [List.append_assoc]; exact List.prefix_append _ _
  | inner hn hl hb' hc =>
    refine .inner hn ?_ ?_ (fun c t hct => ?_)
    · simp only [List.length_append, List.length_singleton, List.length_cons] at hl ⊢; omega
    · intro b h
      rcases List.mem_append.1 h with h | h
      · exact hb b h
      · rcases List.mem_cons.1 h with rfl | h
        · exact hd
        · exact hb' b h
    · have := hc c t hct
      simpa [List.append_assoc] using this

theorem collapse_has {pfx : List Nat} {d : Nat} {t : Art V} (k : List Nat) (v : V) : Has (collapse pfx d t) k v ↔ Has t k v := by
  cases t with
  | leaf => rfl
  | inner p n => simp only [collapse]; rw [has_inner, has_inner]

theorem nodeErase_cases {pfx : List Nat} {n : Node (Art V)} (hn : KOk n) {c : Nat} {y : Art V} (hy : n.find c = some y) :
    (∃ n', nodeErase pfx n c = .inner pfx n' ∧ KOk n' ∧ ∀ i, n'.find i = if i = c then none else n.find i) ∨
    (∃ d t, d ≠ c ∧ n.find d = some t ∧ (∀ i, i ≠ c → i ≠ d → n.find i = none) ∧ nodeErase pfx n c = collapse pfx d t) := by
  match n, hn, hy with
  | .n16 ks, hn, hy => exact Or.inl ⟨_, rfl, node16Erase_ok hn.1 hn.2.1 hn.2.2 hy⟩
  | .n48 n, hn, hy => exact Or.inl ⟨_, rfl, N48.erase_ok hn.1 hn.2 hy⟩
  | .n256 n, hn, hy => exact Or.inl ⟨_, rfl, N256.erase_ok hn.1 hn.2 hy⟩
  | .n4 ks, hn, hy =>
    have hy : findKs ks c = some y := hy
    obtain ⟨j, hj⟩ := findIdx_of_find hy
    obtain ⟨h1, h2, h3⟩ := eraseKs_spec hn.1 hj
    simp only [nodeErase, node4Erase, hj]
    by_cases hl : ks.length = 2
    · right
      rw [if_pos hl]
      obtain ⟨hjl, hp, _⟩ := List.findIdx?_eq_some_iff_getElem.1 hj
      match ks, hl with
      | [(a, s), (b, t)], _ =>
        have hab := hn.1.sorted
        simp at hab
        simp only [List.length_cons, List.length_nil] at hjl
        rcases (show j = 0 ∨ j = 1 by omega) with rfl | rfl
        · simp at hp
          refine ⟨b, t, by omega, idx_findKs hn.1 (j := 1) rfl, ?_, ?_⟩
          · intro i h4 h5
            show findKs _ i = none
            rw [findKs_eq_none]; simp; omega
          · cases t <;> rfl
        · simp at hp
          refine ⟨a, s, by omega, idx_findKs hn.1 (j := 0) rfl, ?_, ?_⟩
          · intro i h4 h5
            show findKs _ i = none
            rw [findKs_eq_none]; simp; omega
          · cases s <;> rfl
    · left
      rw [if_neg hl]
      have := hn.2
      exact ⟨_, rfl, ⟨h1, by omega, by omega⟩, h3⟩

theorem nodeErase_spec {path pfx : List Nat} {n : Node (Art V)} (hi : Inv path (.inner pfx n)) {c : Nat} {y : Art V}
    (hy : n.find c = some y) : Inv path (nodeErase pfx n c) ∧
      ∀ k v, Has (nodeErase pfx n c) k v ↔ ∃ d s, d ≠ c ∧ n.find d = some s ∧ Has s k v := by
  cases hi with
  | inner hn hl hb hc =>
    rcases nodeErase_cases (pfx := pfx) hn hy with ⟨n', e, hk, hf⟩ | ⟨d, t, hd, ht, ho, e⟩
    · rw [e]
      refine ⟨.inner hk hl hb (fun d s hds => ?_), fun k v => ?_⟩
      · rw [hf] at hds
        split at hds
        · cases hds
        · exact hc d s hds
      · rw [has_inner]
        constructor
        · rintro ⟨d, s, hds, h⟩
          rw [hf] at hds
          split at hds
          · cases hds
          · exact ⟨d, s, by assumption, hds, h⟩
        · rintro ⟨d, s, hd, hds, h⟩
          exact ⟨d, s, by rw [hf, if_neg hd, hds], h⟩
    · rw [e]
      refine ⟨collapse_inv hb (hn.find_lt ht) (hc d t ht), fun k v => ?_⟩
      rw [collapse_has]
      constructor
      · intro h; exact ⟨d, t, hd, ht, h⟩
      · rintro ⟨d', s, hd', hs, h⟩
        by_cases e' : d' = d
        · subst e'; rw [ht] at hs; cases hs; exact h
        · rw [ho d' hd' e'] at hs; cases hs

/-- What `art_erase_at` has to do. -/
def EraseSpec (path : List Nat) (t : Art V) (key : List Nat) : Option (V × Option (Art V)) → Prop
  | none => ∀ v, ¬ Has t key v
  | some (v, none) => Has t key v ∧ ∀ k w, Has t k w → k = key
  | some (v, some t') => Has t key v ∧ Inv path t' ∧ ∀ k w, Has t' k w ↔ k ≠ key ∧ Has t k w

theorem leafErase {path key lkey : List Nat} {lval : V} (fuel d : Nat) (hk : IsKey key) (hk' : IsKey lkey) :
    EraseSpec path (.leaf lkey lval) key (artEraseAt fuel (.leaf lkey lval) key d) := by
  unfold artEraseAt
  by_cases he : artCommonPrefix lkey 0 KEY_BYTES key 0 KEY_BYTES = KEY_BYTES
  · rw [if_neg (by simpa using he)]
    rw [artCommonPrefix_full hk'.len hk.len] at he
    exact ⟨by rw [has_leaf]; exact ⟨he.symm, rfl⟩, fun k w h => by rw [has_leaf] at h; rw [h.1, he]⟩
  · rw [if_pos he]
    rw [artCommonPrefix_full hk'.len hk.len] at he
    intro v h; rw [has_leaf] at h; exact he h.1.symm

theorem artEraseAt_spec (fuel : Nat) {t : Art V} {path key : List Nat} (hi : Inv path t) (hk : IsKey key)
    (hp : path <+: key) (hf : 6 ≤ fuel + path.length) :
    EraseSpec path t key (artEraseAt fuel t key path.length) := by
  induction fuel generalizing t path with
  | zero =>
    cases hi with
    | leaf hk' hp' => exact leafErase 0 _ hk hk'
    | inner hn hl => omega
  | succ fuel ih =>
    cases hi with
    | leaf hk' hp' => exact leafErase _ _ hk hk'
    | @inner _ pfx n hn hl hb hc =>
      have hi := Inv.inner hn hl hb hc
      simp only [artEraseAt]
      rw [artCommonPrefix_pfx hk.len]
      by_cases he : commonLen pfx (key.drop path.length) = pfx.length
      · rw [if_neg (by simpa using he), he]
        rw [commonLen_eq_left, prefix_append_drop hp] at he
        cases hx : n.find (key.getD (path.length + pfx.length) 0) with
        | none =>
          intro v h
          obtain ⟨_, t, ht, _⟩ := (hi.has_child hk).1 h
          rw [hx] at ht; cases ht
        | some child =>
          have hsn : path ++ pfx ++ [key.getD (path.length + pfx.length) 0] <+: key := by
            have := snoc_prefix he (by rw [List.length_append, hk.len]; exact hl)
            rw [List.length_append] at this; exact this
          have hlen : (path ++ pfx ++ [key.getD (path.length + pfx.length) 0]).length = path.length + pfx.length + 1 := by
            simp only [List.length_append, List.length_singleton]
          have hic := hc _ _ hx
          have h1 := ih hic hsn (by rw [hlen]; omega)
          rw [hlen] at h1
          have hother : ∀ k v, (∃ d s, d ≠ key.getD (path.length + pfx.length) 0 ∧ n.find d = some s ∧ Has s k v) → k ≠ key := by
            rintro k v ⟨d, s, hd, hds, h⟩ rfl
            exact other_key hi hk hd hds h
          simp only
          cases hr : artEraseAt fuel child key (path.length + pfx.length + 1) with
          | none =>
            rw [hr] at h1
            intro v h
            obtain ⟨_, t, ht, h⟩ := (hi.has_child hk).1 h
            rw [hx] at ht; cases ht
            exact h1 v h
          | some r =>
            rw [hr] at h1
            obtain ⟨v, t'⟩ := r
            cases t' with
            | none =>
              obtain ⟨a1, a2⟩ := h1
              obtain ⟨b1, b2⟩ := nodeErase_spec hi hx
              refine ⟨.inner hx a1, b1, fun k w => ?_⟩
              rw [b2, has_split hx]
              constructor
              · intro h; exact ⟨hother k w h, Or.inr h⟩
              · rintro ⟨hne, h | h⟩
                · exact absurd (a2 k w h) hne
                · exact h
            | some t' =>
              obtain ⟨a1, a2, a3⟩ := h1
              obtain ⟨r1, r2⟩ := replace_spec hi hx a2
              refine ⟨.inner hx a1, r1, fun k w => ?_⟩
              rw [r2, has_split hx, a3]
              constructor
              · rintro (⟨hne, h⟩ | h)
                · exact ⟨hne, Or.inl h⟩
                · exact ⟨hother k w h, Or.inr h⟩
              · rintro ⟨hne, h | h⟩
                · exact Or.inl ⟨hne, h⟩
                · exact Or.inr h
      · rw [if_pos he]
        rw [commonLen_eq_left, prefix_append_drop hp] at he
        intro v h
        exact he ((hi.has_child hk).1 h).1

/-! ### The whole tree -/

/-- The root of a tree that the code can build. -/
def ArtOk (root : Option (Art V)) : Prop := ∀ t, root = some t → Inv [] t

/-- The leaves of a tree, which may be empty. -/
def RHas (root : Option (Art V)) (k : List Nat) (v : V) : Prop := ∃ t, root = some t ∧ Has t k v

theorem artOk_none : ArtOk (none : Option (Art V)) := by intro t h; cases h

theorem ArtOk.key {root : Option (Art V)} (h : ArtOk root) {k : List Nat} {v : V} (hh : RHas root k v) : IsKey k := by
  obtain ⟨t, rfl, hh⟩ := hh
  exact ((h t rfl).key hh).1

theorem RHas.unique {root : Option (Art V)} (h : ArtOk root) {k : List Nat} {v w : V} (h1 : RHas root k v) (h2 : RHas root k w) :
    v = w := by
  obtain ⟨t, rfl, h1⟩ := h1
  obtain ⟨t', e, h2⟩ := h2
  cases e
  exact Has.unique (h t rfl) h1 h2

theorem artFind_iff {root : Option (Art V)} (h : ArtOk root) {key : List Nat} (hk : IsKey key) (v : V) :
    artFind root key = some v ↔ RHas root key v := by
  cases root with
  | none => simp [artFind, RHas]
  | some t =>
    have := artFindAt_spec LEVELS (h t rfl) hk List.nil_prefix (by simp [LEVELS]) v
    simpa [artFind, RHas] using this

theorem artFind_none_iff {root : Option (Art V)} (h : ArtOk root) {key : List Nat} (hk : IsKey key) :
    artFind root key = none ↔ ∀ v, ¬ RHas root key v := by
  cases e : artFind root key with
  | none =>
    simp only [true_iff]
    intro v hv
    rw [← artFind_iff h hk, e] at hv; cases hv
  | some v =>
    simp only [reduceCtorEq, false_iff]
    intro hv; exact hv v ((artFind_iff h hk v).1 e)

theorem artInsert_has {root : Option (Art V)} (h : ArtOk root) {key : List Nat} (hk : IsKey key)
    (hn : artFind root key = none) (val : V) : ArtOk (artInsert root key val) ∧
      ∀ k v, RHas (artInsert root key val) k v ↔ RHas root k v ∨ (k = key ∧ v = val) := by
  rw [artFind_none_iff h hk] at hn
  cases root with
  | none =>
    refine ⟨fun t ht => ?_, fun k v => ?_⟩
    · cases ht; exact .leaf hk List.nil_prefix
    · simp [RHas, artInsert, has_leaf]
  | some t =>
    obtain ⟨h1, h2⟩ := artInsertAt_spec LEVELS (h t rfl) hk List.nil_prefix (by simp [LEVELS])
      (fun v hv => hn v ⟨t, rfl, hv⟩) val
    refine ⟨fun t' ht => ?_, fun k v => ?_⟩
    · cases ht; exact h1
    · simpa [RHas, artInsert] using h2 k v

theorem artErase_has {root : Option (Art V)} (h : ArtOk root) {key : List Nat} (hk : IsKey key) :
    (artErase root key).1 = artFind root key ∧ ArtOk (artErase root key).2 ∧
      ∀ k v, RHas (artErase root key).2 k v ↔ k ≠ key ∧ RHas root k v := by
  cases root with
  | none => exact ⟨rfl, artOk_none, fun k v => by simp [RHas, artErase]⟩
  | some t =>
    have hs := artEraseAt_spec LEVELS (h t rfl) hk List.nil_prefix (by simp [LEVELS])
    simp only [List.length_nil] at hs
    simp only [artErase]
    cases e : artEraseAt LEVELS t key 0 with
    | none =>
      rw [e] at hs
      have hn : artFind (some t) key = none := (artFind_none_iff h hk).2 (fun v ⟨t', e', hv⟩ => by cases e'; exact hs v hv)
      refine ⟨hn.symm, h, fun k v => ?_⟩
      constructor
      · intro hh; refine ⟨?_, hh⟩
        rintro rfl
        exact (artFind_none_iff h hk).1 hn v hh
      · exact fun hh => hh.2
    | some r =>
      rw [e] at hs
      obtain ⟨v, t'⟩ := r
      cases t' with
      | none =>
        obtain ⟨a1, a2⟩ := hs
        refine ⟨((artFind_iff h hk v).2 ⟨t, rfl, a1⟩).symm, artOk_none, fun k w => ?_⟩
        constructor
        · rintro ⟨t', e', _⟩; cases e'
        · rintro ⟨hne, t', e', hh⟩; cases e'; exact absurd (a2 k w hh) hne
      | some t' =>
        obtain ⟨a1, a2, a3⟩ := hs
        refine ⟨((artFind_iff h hk v).2 ⟨t, rfl, a1⟩).symm, fun s hs => by cases hs; exact a2, fun k w => ?_⟩
        simpa [RHas] using a3 k w

theorem artStore_has {root : Option (Art V)} (h : ArtOk root) {key : List Nat} (hk : IsKey key) {w : V}
    (hw : artFind root key = some w) (val : V) : ArtOk (artStore root key val) ∧
      ∀ k v, RHas (artStore root key val) k v ↔ if k = key then v = val else RHas root k v := by
  rw [artFind_iff h hk] at hw
  obtain ⟨t, rfl, hw⟩ := hw
  obtain ⟨h1, h2⟩ := artStoreAt_spec LEVELS (h t rfl) hk List.nil_prefix (by simp [LEVELS]) hw val
  refine ⟨fun s hs => by cases hs; exact h1, fun k v => ?_⟩
  simpa [RHas, artStore] using h2 k v

end
end CRoaring
