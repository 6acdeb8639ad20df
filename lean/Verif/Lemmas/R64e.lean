import Verif.Lemmas.R64d
/-
The 64-bit bitmap: ranks, selection, extreme values, range queries, checked updates.
-/
set_option linter.unusedSimpArgs false
set_option linter.unusedVariables false
namespace CRoaring
open Spec

theorem cmp_key {r : R64} {it : AIt} {n : Nat} {c : Container} {t : Bitmap} (h : ICons r it n c t) {k : List Nat} (hk : IsKey k) :
    (artCompareKeys it.key k = 0 ↔ n = keyNum k) ∧ (artCompareKeys it.key k < 0 ↔ n < keyNum k) ∧
    (artCompareKeys it.key k > 0 ↔ keyNum k < n) := by
  have h1 := artCompareKeys_spec h.key hk
  have e1 := h.num
  subst e1
  refine ⟨?_, h1.2.1, h1.2.2⟩
  rw [h1.1]
  exact ⟨fun e => by rw [e], fun e => key_inj h.key hk e⟩

theorem r64IsStrictSubset_iff {r1 r2 : R64} {s t : NSet} (h1 : Rep64 r1 s) (h2 : Rep64 r2 t) (hb : card TOP64 t < TOP64) :
    r64IsStrictSubset r1 r2 = true ↔ (∀ x, s x = true → t x = true) ∧ ∃ x, t x = true ∧ s x = false := by
  unfold r64IsStrictSubset
  rw [Bool.and_eq_true, decide_eq_true_eq, r64IsSubset_iff h1 h2, r64Cardinality_eq h1, r64Cardinality_eq h2]
  constructor
  · rintro ⟨hc, hs⟩
    refine ⟨hs, ?_⟩
    apply Classical.byContradiction
    intro hn
    have : card TOP64 t ≤ card TOP64 s := by
      refine card_mono fun x _ hx => ?_
      cases hsx : s x with
      | true => rfl
      | false => exact absurd ⟨x, hx, hsx⟩ hn
    have h3 := card_mono (n := TOP64) (s := s) (t := t) (fun x _ => hs x)
    rw [Nat.mod_eq_of_lt (by omega), Nat.mod_eq_of_lt (by omega)] at hc
    omega
  · rintro ⟨hs, x, hx1, hx2⟩
    refine ⟨?_, hs⟩
    have h3 := card_mono (n := TOP64) (s := s) (t := t) (fun x _ => hs x)
    rw [Nat.mod_eq_of_lt (by omega), Nat.mod_eq_of_lt (by omega)]
    apply Classical.byContradiction
    intro hn
    have hxt : x < TOP64 := by
      apply Classical.byContradiction
      intro hh
      rw [h2.zero (by omega)] at hx1; cases hx1
    have := eq_of_card_le (fun y _ => hs y) (by omega : card TOP64 t ≤ card TOP64 s) x hxt
    rw [this, hx1] at hx2; cases hx2

/-! ### Rank -/

theorem rank64_skip {r : R64} (k : List Nat × Nat) (hk : IsKey k.1) (fuel : Nat) {it : AIt} {A B : Bitmap} (hi : IL r it (A ++ B))
    (hq : BQ CNe (A ++ B)) (hA : ∀ p ∈ A, p.1 < keyNum k.1) (acc : Nat) (ha : acc < TOP64) (hf : A.length ≤ fuel) :
    ∃ it', IL r it' B ∧ rank64Loop r k fuel it acc = rank64Loop r k (fuel - A.length) it' ((acc + bcard A) % TOP64) := by
  induction A generalizing fuel it acc with
  | nil =>
    refine ⟨it, hi, ?_⟩
    simp only [bcard, List.length_nil, Nat.sub_zero, Nat.add_zero]
    rw [Nat.mod_eq_of_lt ha]
  | cons p t ih =>
    obtain ⟨n, c⟩ := p
    cases fuel with
    | zero => simp at hf
    | succ fuel =>
      have g := hi.cons
      have hn := hA (n, c) (by simp)
      obtain ⟨it', h1, h2⟩ := ih fuel g.next hq.2.2.2 (fun p hp => hA p (by simp [hp])) ((acc + card 65536 (chas c)) % TOP64)
        (Nat.mod_lt _ (by unfold TOP64; omega)) (by simp at hf; omega)
      refine ⟨it', h1, ?_⟩
      rw [rank64Loop, g.value]
      simp only
      rw [if_pos ((cmp_key g hk).2.1.2 hn), containerCard_eq hq.2.1.1.rep, u64_add, h2, top_add]
      simp only [List.length_cons, bcard, Nat.add_sub_add_right]

theorem rank64_stop {r : R64} (k : List Nat × Nat) (hk : IsKey k.1) (fuel : Nat) {it : AIt} {B : Bitmap} (hi : IL r it B)
    (hB : ∀ p ∈ B, keyNum k.1 < p.1) (acc : Nat) : rank64Loop r k fuel it acc = acc := by
  cases fuel with
  | zero => rfl
  | succ fuel =>
    rw [rank64Loop]
    cases B with
    | nil => rw [hi.nil]
    | cons p t =>
      obtain ⟨n, c⟩ := p
      have g := hi.cons
      have hn := hB (n, c) (by simp)
      simp only at hn
      rw [g.value]
      simp only
      rw [if_neg (fun h => by have := (cmp_key g hk).2.1.1 h; omega), if_neg (fun h => by have := (cmp_key g hk).1.1 h; omega)]

theorem val_split {v : Nat} : v = v / 65536 * 65536 + v % 65536 := by omega

theorem r64Rank_eq {r : R64} {s : NSet} (h : Rep64 r s) {v : Nat} (hv : v < TOP64) : r64Rank r v = card (v + 1) s % TOP64 := by
  rep64 h l
  unfold r64Rank
  have hk := splitKey_isKey v
  have hn := keyNum_split hv
  have ev : v + 1 = v / 65536 * 65536 + (v % 65536 + 1) := by omega
  rcases h.rl.split hk with ⟨A, c, B, rfl, hA, hB, hf⟩ | ⟨A, B, rfl, hA, hB, hf⟩
  · have hq := h.bq
    have hfl := h.rl.fuel
    simp only [List.length_append, List.length_cons] at hfl
    obtain ⟨it', h1, h2⟩ := rank64_skip (splitKey v) hk FUEL h.rl.init hq hA 0 (by unfold TOP64; omega) (by omega)
    rw [h2]
    have hfl' : FUEL - A.length = (FUEL - A.length - 1) + 1 := by omega
    rw [hfl', rank64Loop]
    have g := h1.cons
    rw [g.value]
    simp only
    have hc := (bq_append.1 hq).2.1.2.1
    rw [if_neg (fun h => by have := (cmp_key g hk).2.1.1 h; omega), if_pos ((cmp_key g hk).1.2 rfl), containerRank_eq hc.1.rep, u64_add,
      top_add, splitKey_low, ev, ← hn, card_prefix64 h.rl.ks (by omega), Nat.zero_add]
  · have hq := h.bq
    have hfl := h.rl.fuel
    simp only [List.length_append] at hfl
    obtain ⟨it', h1, h2⟩ := rank64_skip (splitKey v) hk FUEL h.rl.init hq hA 0 (by unfold TOP64; omega) (by omega)
    rw [h2, rank64_stop _ hk _ h1 hB, ev, ← hn, card_gap64 h.rl.ks hA hB (by omega), Nat.zero_add]

theorem getIndex64_skip {r : R64} (k : List Nat × Nat) (hk : IsKey k.1) (fuel : Nat) {it : AIt} {A B : Bitmap} (hi : IL r it (A ++ B))
    (hq : BQ CNe (A ++ B)) (hA : ∀ p ∈ A, p.1 < keyNum k.1) (acc : Nat) (ha : acc < TOP64) (hf : A.length ≤ fuel) :
    ∃ it', IL r it' B ∧ getIndex64Loop r k fuel it acc = getIndex64Loop r k (fuel - A.length) it' ((acc + bcard A) % TOP64) := by
  induction A generalizing fuel it acc with
  | nil =>
    refine ⟨it, hi, ?_⟩
    simp only [bcard, List.length_nil, Nat.sub_zero, Nat.add_zero]
    rw [Nat.mod_eq_of_lt ha]
  | cons p t ih =>
    obtain ⟨n, c⟩ := p
    cases fuel with
    | zero => simp at hf
    | succ fuel =>
      have g := hi.cons
      have hn := hA (n, c) (by simp)
      obtain ⟨it', h1, h2⟩ := ih fuel g.next hq.2.2.2 (fun p hp => hA p (by simp [hp])) ((acc + card 65536 (chas c)) % TOP64)
        (Nat.mod_lt _ (by unfold TOP64; omega)) (by simp at hf; omega)
      refine ⟨it', h1, ?_⟩
      rw [getIndex64Loop, g.value]
      simp only
      rw [if_pos ((cmp_key g hk).2.1.2 hn), containerCard_eq hq.2.1.1.rep, u64_add, h2, top_add]
      simp only [List.length_cons, bcard, Nat.add_sub_add_right]

theorem getIndex64_stop {r : R64} (k : List Nat × Nat) (hk : IsKey k.1) (fuel : Nat) {it : AIt} {B : Bitmap} (hi : IL r it B)
    (hB : ∀ p ∈ B, keyNum k.1 < p.1) (acc : Nat) : getIndex64Loop r k fuel it acc = none := by
  cases fuel with
  | zero => rfl
  | succ fuel =>
    rw [getIndex64Loop]
    cases B with
    | nil => rw [hi.nil]
    | cons p t =>
      obtain ⟨n, c⟩ := p
      have g := hi.cons
      have hn := hB (n, c) (by simp)
      simp only at hn
      rw [g.value]
      simp only
      rw [if_neg (fun h => by have := (cmp_key g hk).2.1.1 h; omega), if_neg (fun h => by have := (cmp_key g hk).1.1 h; omega)]

theorem r64GetIndex_eq {r : R64} {s : NSet} (h : Rep64 r s) {v : Nat} (hv : v < TOP64) :
    r64GetIndex r v = if s v = true then some (card v s) else none := by
  rep64 h l
  unfold r64GetIndex
  have hk := splitKey_isKey v
  have hn := keyNum_split hv
  rcases h.rl.split hk with ⟨A, c, B, rfl, hA, hB, hf⟩ | ⟨A, B, rfl, hA, hB, hf⟩
  · have hq := h.bq
    have hfl := h.rl.fuel
    simp only [List.length_append, List.length_cons] at hfl
    obtain ⟨it', h1, h2⟩ := getIndex64_skip (splitKey v) hk FUEL h.rl.init hq hA 0 (by unfold TOP64; omega) (by omega)
    rw [h2]
    have hfl' : FUEL - A.length = (FUEL - A.length - 1) + 1 := by omega
    rw [hfl', getIndex64Loop]
    have g := h1.cons
    rw [g.value]
    simp only
    have hc := (bq_append.1 hq).2.1.2.1
    have hcard : card v (bhas (A ++ (keyNum (splitKey v).1, c) :: B)) = bcard A + card (v % 65536) (chas c) := by
      rw [← card_prefix64 h.rl.ks (by omega), hn, ← val_split]
    have hle := card_le v (bhas (A ++ (keyNum (splitKey v).1, c) :: B))
    rw [if_neg (fun h => by have := (cmp_key g hk).2.1.1 h; omega), if_pos ((cmp_key g hk).1.2 rfl), containerGetIndex_eq hc.1.rep,
      splitKey_low, bhas_mid hA hB, if_pos hn.symm, hcard, Nat.zero_add]
    cases hs : chas c (v % 65536) with
    | false => simp
    | true =>
      simp only [if_true]
      rw [if_neg (by omega), u64_add, Nat.mod_add_mod, Nat.mod_eq_of_lt (by omega)]
  · have hq := h.bq
    have hfl := h.rl.fuel
    simp only [List.length_append] at hfl
    obtain ⟨it', h1, h2⟩ := getIndex64_skip (splitKey v) hk FUEL h.rl.init hq hA 0 (by unfold TOP64; omega) (by omega)
    rw [h2, getIndex64_stop _ hk _ h1 hB, bhas_gap hA hB hn.symm]
    simp

/-! ### Selection -/

theorem select64_loop {r : R64} (fuel : Nat) {it : AIt} {l : Bitmap} (hi : IL r it l) (hl : BQ CNe l) {rank sr : Nat} (hr : sr ≤ rank)
    (hb : sr + bcard l < TOP64 ∨ rank < TOP64 - 65536) (hrk : rank < TOP64) (hf : l.length < fuel) :
    select64Loop r rank fuel it sr = (vals l)[rank - sr]? := by
  induction fuel generalizing it l sr with
  | zero => omega
  | succ fuel ih =>
    unfold select64Loop
    cases l with
    | nil => rw [hi.nil]; simp [vals_nil]
    | cons p t =>
      obtain ⟨n, c⟩ := p
      have g := hi.cons
      have hc := hl.2.1.1.rep
      have hle := card_le 65536 (chas c)
      rw [g.value]
      simp only
      have eu : u64 (containerCard c) = card 65536 (chas c) := by
        rw [containerCard_eq hc]; exact u64_nat (by omega)
      simp only [bcard] at hb
      have es : u64 ((sr : Int) + (card 65536 (chas c) : Nat)) = sr + card 65536 (chas c) := by
        rw [u64_add, Nat.mod_eq_of_lt]
        unfold TOP64 at *; omega
      rw [eu, es, vals_cons]
      by_cases hlt : sr + card 65536 (chas c) > rank
      · rw [if_pos hlt]
        have e32 : u32 ((rank : Int) - sr) = rank - sr := by unfold u32; omega
        rw [e32, containerSelect_spec hc (Nat.zero_le _) (by omega) (by omega)]
        have hlen := cvals_length n c
        rw [List.getElem?_append_left (by rw [hlen]; omega)]
        unfold cvals
        rw [List.getElem?_map, Nat.sub_zero]
        obtain ⟨x, hx, hx2, -⟩ := enum_getElem_lt (n := 65536) (k := rank - sr) (s := chas c) (by omega)
        rw [hx]
        simp only [Option.map_some]
        rw [Nat.mod_eq_of_lt hx2, combineKey_eq g.key hx2, g.num]
      · rw [if_neg hlt, ih g.next hl.2.2.2 (by omega) (by omega) (by simp at hf; omega)]
        have hlen := cvals_length n c
        rw [List.getElem?_append_right (by rw [hlen]; omega), hlen, Nat.sub_sub]

theorem r64Select_eq {r : R64} {s : NSet} (h : Rep64 r s) {k : Nat} (hk : k < TOP64)
    (hb : card TOP64 s < TOP64 ∨ k < TOP64 - 65536) : r64Select r k = (enum TOP64 s)[k]? := by
  rep64 h l
  unfold r64Select
  rw [bq_card h.bq] at hb
  rw [select64_loop FUEL h.rl.init h.bq (Nat.zero_le _) (by omega) hk h.rl.fuel, bq_vals h.bq, Nat.sub_zero]

/-- On the full set the last rank is not found: the 64-bit counter has come back to 0 behind the last container. -/
theorem select64_full {r : R64} (fuel : Nat) {it : AIt} {l : Bitmap} (hi : IL r it l) (hl : BQ CNe l) {sr : Nat}
    (hb : sr + bcard l = TOP64) : select64Loop r (TOP64 - 1) fuel it sr = none := by
  induction fuel generalizing it l sr with
  | zero => rfl
  | succ fuel ih =>
    unfold select64Loop
    cases l with
    | nil => rw [hi.nil]
    | cons p t =>
      obtain ⟨n, c⟩ := p
      have g := hi.cons
      have hc := hl.2.1.1.rep
      have hle := card_le 65536 (chas c)
      rw [g.value]
      simp only
      have eu : u64 (containerCard c) = card 65536 (chas c) := by
        rw [containerCard_eq hc]; exact u64_nat (by omega)
      simp only [bcard] at hb
      rw [eu, u64_add]
      cases t with
      | nil =>
        simp only [bcard, Nat.add_zero] at hb
        rw [hb, Nat.mod_self, if_neg (by unfold TOP64; omega)]
        cases fuel with
        | zero => rfl
        | succ fuel => unfold select64Loop; rw [g.next.nil]
      | cons q t =>
        obtain ⟨m, d⟩ := q
        obtain ⟨x, hx⟩ := hl.2.2.2.2.1.2
        have hpos := card_pos (n := 65536) (s := chas d) |>.2 ⟨x, chas_lt hl.2.2.2.2.1.1 hx, hx⟩
        simp only [bcard] at hb
        rw [Nat.mod_eq_of_lt (by omega), if_neg (by omega)]
        exact ih g.next hl.2.2.2 (by simp only [bcard]; omega)

theorem r64Select_full {r : R64} {s : NSet} (h : Rep64 r s) (hf : card TOP64 s = TOP64) : r64Select r (TOP64 - 1) = none := by
  rep64 h l
  unfold r64Select
  rw [bq_card h.bq] at hf
  exact select64_full FUEL h.rl.init h.bq (by omega)

/-! ### Extreme values -/

theorem r64Minimum_spec {r : R64} {s : NSet} (h : Rep64 r s) :
    ((∀ x, s x = false) → r64Minimum r = TOP64 - 1) ∧
    ((∃ x, s x = true) → s (r64Minimum r) = true ∧ ∀ x, s x = true → r64Minimum r ≤ x) := by
  rep64 h l
  have hq := h.bq
  unfold r64Minimum
  have hi := h.rl.init
  cases l with
  | nil =>
    simp only
    rw [hi.nil]
    exact ⟨fun _ => rfl, fun ⟨x, hx⟩ => by rw [bhas_nil] at hx; cases hx⟩
  | cons p t =>
    obtain ⟨n, c⟩ := p
    have g := hi.cons
    simp only
    rw [g.value]
    simp only
    have hm := containerMin_spec hq.2.1.1.rep hq.2.1.2
    have hlt := chas_lt hq.2.1.1 hm.1
    rw [combineKey_eq g.key hlt, g.num]
    constructor
    · intro hx
      obtain ⟨y, _, hy⟩ := bq_head_ex hq
      rw [hx] at hy; cases hy
    · intro _
      refine ⟨by rw [bq_head hq hlt]; exact hm.1, fun x hx => ?_⟩
      have hge := bq_ge hq hx
      rcases Nat.eq_or_lt_of_le hge with e | hg
      · have hxm : x % 65536 < 65536 := Nat.mod_lt _ (by omega)
        have ex : x = n * 65536 + x % 65536 := by omega
        rw [ex, bq_head hq hxm] at hx
        have := hm.2 _ hx
        omega
      · omega

theorem r64Maximum_spec {r : R64} {s : NSet} (h : Rep64 r s) :
    ((∀ x, s x = false) → r64Maximum r = 0) ∧
    ((∃ x, s x = true) → s (r64Maximum r) = true ∧ ∀ x, s x = true → x ≤ r64Maximum r) := by
  rep64 h l
  have hq := h.bq
  unfold r64Maximum
  have hi := artInit_last h.rl.ok
  unfold RLast at hi
  cases hv : (artInitIterator r false).value with
  | none =>
    rw [hv] at hi
    have e : l = [] := by
      cases l with
      | nil => rfl
      | cons p t =>
        obtain ⟨k, hk, e⟩ := (h.rl.mem p.1 p.2).1 (by simp)
        have h1 := hi k _ hk
        have h2 := keyNum_lt_top (h.rl.ok.key hk)
        omega
    subst e
    simp only [hv]
    exact ⟨fun _ => trivial, fun ⟨x, hx⟩ => by rw [bhas_nil] at hx; cases hx⟩
  | some c =>
    rw [hv] at hi
    obtain ⟨ha, -, hmax⟩ := hi
    have hhas := ha.has h.rl.ok
    have hk := h.rl.ok.key hhas
    have hm := (h.rl.mem _ c).2 ⟨_, hhas, rfl⟩
    simp only [hv]
    generalize artInitIterator r false = it at *
    obtain ⟨A, B, hAB⟩ := List.append_of_mem hm
    subst hAB
    have hks := ks_mid.1 h.rl.ks
    have hB : B = [] := by
      cases B with
      | nil => rfl
      | cons p t =>
        obtain ⟨k, hk, e⟩ := (h.rl.mem p.1 p.2).1 (by simp)
        have h1 := hmax k _ hk (keyNum_lt_top (h.rl.ok.key hk))
        have h2 := hks.2.2 p (by simp)
        omega
    subst hB
    have hc := (bq_append.1 hq).2.1.2.1
    have hcm := containerMax_spec hc.1.rep hc.2
    have hlt := chas_lt hc.1 hcm.1
    rw [combineKey_eq hk hlt]
    have hin : ∀ y, y < 65536 → bhas (A ++ [(keyNum it.key, c)]) (keyNum it.key * 65536 + y) = chas c y := by
      intro y hy
      rw [bhas_mid hks.2.1 hks.2.2, if_pos (by omega)]
      congr 1; omega
    constructor
    · intro hx
      have := hx (keyNum it.key * 65536 + containerMax c)
      rw [hin _ hlt, hcm.1] at this; cases this
    · intro _
      refine ⟨by rw [hin _ hlt]; exact hcm.1, fun x hx => ?_⟩
      obtain ⟨p, hp, e, hy⟩ := bhas_key hx
      rcases List.mem_append.1 hp with hp | hp
      · have := hks.2.1 p hp; omega
      · simp only [List.mem_singleton] at hp
        subst hp
        have := hcm.2 _ hy
        simp only at e
        omega

/-! ### Cardinality of a range -/

/-- The number of values up to `K * 65536 + low`. -/
def rankL (K low : Nat) : Bitmap → Nat
  | [] => 0
  | (k, c) :: t => if k < K then card 65536 (chas c) + rankL K low t else if k = K then card (low + 1) (chas c) else 0

theorem rankL_gt {K low : Nat} {l : Bitmap} (h : ∀ p ∈ l, K < p.1) : rankL K low l = 0 := by
  cases l with
  | nil => rfl
  | cons p t =>
    obtain ⟨k, c⟩ := p
    have := h (k, c) (by simp)
    simp only at this
    simp only [rankL]
    rw [if_neg (by omega), if_neg (by omega)]

theorem rankL_append {K low : Nat} {A B : Bitmap} (h : ∀ p ∈ A, p.1 < K) : rankL K low (A ++ B) = bcard A + rankL K low B := by
  induction A with
  | nil => simp [bcard]
  | cons p t ih =>
    obtain ⟨k, c⟩ := p
    have := h (k, c) (by simp)
    simp only at this
    simp only [List.cons_append, rankL, bcard]
    rw [if_pos this, ih (fun p hp => h p (by simp [hp]))]
    omega

theorem rankL_eq {l : Bitmap} (h : KS l) (K : Nat) {low : Nat} (hl : low < 65536) :
    rankL K low l = card (K * 65536 + low + 1) (bhas l) := by
  obtain ⟨A, B, rfl, hA, hB⟩ := h.split K
  rw [rankL_append hA, Nat.add_assoc]
  cases B with
  | nil => rw [card_gap64 h hA (by simp) (by omega)]; simp [rankL]
  | cons p t =>
    obtain ⟨k, c⟩ := p
    have h1 := hB (k, c) (by simp)
    simp only at h1
    have hks := ks_mid.1 h
    simp only [rankL]
    rw [if_neg (by omega)]
    by_cases e : k = K
    · subst e
      rw [if_pos rfl, card_prefix64 h (by omega)]
    · rw [if_neg e, card_gap64 h hA _ (by omega)]
      · omega
      · intro p hp
        rcases List.mem_cons.1 hp with rfl | hp
        · simp only; omega
        · have := hks.2.2 p hp; omega

theorem rangeCard64_loop {r : R64} {kmin kmax : List Nat × Nat} (hkmin : IsKey kmin.1) (hkmax : IsKey kmax.1) (fuel : Nat) {it : AIt}
    {l : Bitmap} (hi : IL r it l) (hl : BQ CNe l) (hgt : ∀ p ∈ l, keyNum kmin.1 < p.1) (n : Nat) (hn : n < TOP64) (hf : l.length < fuel) :
    rangeCard64Loop r kmin kmax fuel it n = (n + rankL (keyNum kmax.1) kmax.2 l) % TOP64 := by
  induction fuel generalizing it l n with
  | zero => omega
  | succ fuel ih =>
    unfold rangeCard64Loop
    cases l with
    | nil => rw [hi.nil]; simp only [rankL]; unfold TOP64 at *; omega
    | cons p t =>
      obtain ⟨k, c⟩ := p
      have g := hi.cons
      have hc := hl.2.1.1.rep
      have hk := hgt (k, c) (by simp)
      simp only at hk
      rw [g.value]
      simp only
      obtain ⟨c0, c1, c2⟩ := cmp_key g hkmax
      rw [if_neg (fun h : artCompareKeys it.key kmin.1 = 0 ∧ kmin.2 > 0 => by have := (cmp_key g hkmin).1.1 h.1; omega)]
      by_cases hgtk : keyNum kmax.1 < k
      · rw [if_pos (c2.2 hgtk), rankL_gt]
        · unfold TOP64 at *; omega
        · intro p hp
          rcases List.mem_cons.1 hp with rfl | hp
          · exact hgtk
          · have := hl.2.2.1 p hp; omega
      · rw [if_neg (fun h => hgtk (c2.1 h))]
        have hgt' : ∀ p ∈ t, keyNum kmin.1 < p.1 := fun p hp => hgt p (by simp [hp])
        by_cases he : k = keyNum kmax.1
        · rw [if_pos (c0.2 he), containerRank_eq hc, u64_add,
            ih g.next hl.2.2.2 hgt' _ (Nat.mod_lt _ (by unfold TOP64; omega)) (by simp at hf; omega), top_add,
            rankL_gt (by rw [← he]; exact hl.2.2.1)]
          simp only [rankL]
          rw [if_neg (by omega), if_pos he]
          rfl
        · rw [if_neg (fun h => he (c0.1 h)), containerCard_eq hc, u64_add,
            ih g.next hl.2.2.2 hgt' _ (Nat.mod_lt _ (by unfold TOP64; omega)) (by simp at hf; omega), top_add]
          simp only [rankL]
          rw [if_pos (by omega)]

theorem card_tail64 {A B : Bitmap} (h : KS (A ++ B)) {K : Nat} (hA : ∀ p ∈ A, p.1 < K) (hB : ∀ p ∈ B, K ≤ p.1) {n : Nat} (hn : K * 65536 ≤ n) :
    card n (bhas (A ++ B)) = bcard A + card n (bhas B) := by
  obtain ⟨m, rfl⟩ := Nat.le.dest hn
  rw [card_add, card_add, card_keys h hA hB]
  have e0 : card (K * 65536) (bhas B) = 0 :=
    card_eq_zero.2 fun x hx => bhas_ne fun p hp => by have := hB p hp; omega
  rw [e0, Nat.zero_add]
  congr 1
  refine card_congr fun x hx => ?_
  rw [bhas_append, bhas_ne (r := A) fun p hp => by have := hA p hp; omega]
  rfl

theorem r64RangeCardinalityClosed_eq {r : R64} {s : NSet} (h : Rep64 r s) {min max : Nat} (hmax : max < TOP64) (hle : min ≤ max) :
    r64RangeCardinalityClosed r min max = (card (max + 1) s - card min s) % TOP64 := by
  rep64 h l
  unfold r64RangeCardinalityClosed
  rw [if_neg (by omega)]
  have hk := splitKey_isKey min
  have hk2 := splitKey_isKey max
  have hn := keyNum_split (show min < TOP64 by omega)
  have hn2 := keyNum_split hmax
  have hi := h.rl.lower hk
  have hfl := h.rl.fuel
  have hq := h.bq
  obtain ⟨A, B, rfl, hA, hB⟩ := h.rl.ks.split (keyNum (splitKey min).1)
  rw [filter_ge_split hA hB] at hi
  have hqB := (bq_append.1 hq).2.1
  have hksB := (ks_append.1 h.rl.ks).2.1
  simp only [List.length_append] at hfl
  have e1 := card_tail64 h.rl.ks hA hB (n := min) (by omega)
  have e2 := card_tail64 h.rl.ks hA hB (n := max + 1) (by omega)
  rw [e1, e2]
  have e3 : card (max + 1) (bhas B) = rankL (keyNum (splitKey max).1) (splitKey max).2 B := by
    rw [rankL_eq hksB _ (by rw [splitKey_low]; omega), splitKey_low, hn2, ← val_split]
  rw [e3]
  have emin : min = keyNum (splitKey min).1 * 65536 + min % 65536 := by omega
  cases B with
  | nil =>
    rw [rangeCard64_loop hk hk2 FUEL hi trivial (by simp) 0 (by unfold TOP64; omega) (by simp; omega)]
    simp only [rankL]
    congr 1; omega
  | cons p t =>
    obtain ⟨k, c⟩ := p
    by_cases hkk : keyNum (splitKey min).1 < k
    · have hgt : ∀ p ∈ (k, c) :: t, keyNum (splitKey min).1 < p.1 := by
        intro p hp
        rcases List.mem_cons.1 hp with rfl | hp
        · exact hkk
        · have := hqB.2.2.1 p hp; omega
      rw [rangeCard64_loop hk hk2 FUEL hi hqB hgt 0 (by unfold TOP64; omega) (by omega)]
      have e4 : card min (bhas ((k, c) :: t)) = 0 := card_eq_zero.2 fun x hx => bhas_ne fun p hp => by
        have := hgt p hp; omega
      rw [e4, Nat.zero_add]
      congr 1; omega
    · have e5 := hB (k, c) (by simp)
      simp only at e5
      have ek : k = keyNum (splitKey min).1 := by omega
      clear hkk e5
      subst ek
      simp only [List.length_cons] at hfl
      have hfu : FUEL = (FUEL - 1) + 1 := by omega
      simp only
      generalize artLowerBound r (splitKey min).1 = it at hi ⊢
      have g := hi.cons
      have hc := hqB.2.1.1.rep
      rw [hfu, rangeCard64Loop, g.value]
      simp only
      obtain ⟨c0, c1, c2⟩ := cmp_key g hk2
      have hmm : keyNum (splitKey min).1 ≤ keyNum (splitKey max).1 := by omega
      rw [if_neg (fun h => by have := c2.1 h; omega)]
      have e6 : card min (bhas ((keyNum (splitKey min).1, c) :: t)) = card (min % 65536) (chas c) := by
        have := card_prefix64 (A := []) (y := min % 65536) (by simpa using hksB) (by omega)
        rw [← emin] at this
        simpa [bcard] using this
      have hkmin0 := (cmp_key g hk).1.2 rfl
      rw [e6]
      have hsub : card (min % 65536) (chas c) ≤ rankL (keyNum (splitKey max).1) (splitKey max).2 ((keyNum (splitKey min).1, c) :: t) := by
        rw [← e6, ← e3]
        exact card_mono_n _ (by omega)
      -- the count after the subtraction in the first container
      have hstep : ∀ m : Nat, card (min % 65536) (chas c) ≤ m →
          (if artCompareKeys it.key (splitKey min).1 = 0 ∧ (splitKey min).2 > 0 then
            u64 (((m % TOP64 : Nat) : Int) - containerRank ((splitKey min).2 - 1) c) else m % TOP64) =
          (m - card (min % 65536) (chas c)) % TOP64 := by
        intro m hm
        rw [splitKey_low]
        by_cases h0 : min % 65536 > 0
        · rw [if_pos ⟨hkmin0, h0⟩, containerRank_eq hc, Nat.sub_add_cancel h0]
          unfold u64 TOP64
          omega
        · have : min % 65536 = 0 := by omega
          rw [if_neg (fun h => h0 h.2), this]
          rfl
      have hrest : ∀ m : Nat, rangeCard64Loop r (splitKey min) (splitKey max) (FUEL - 1) (itNext r it) (m % TOP64) =
          (m + rankL (keyNum (splitKey max).1) (splitKey max).2 t) % TOP64 := by
        intro m
        rw [rangeCard64_loop hk hk2 _ g.next hqB.2.2.2 hqB.2.2.1 _ (Nat.mod_lt _ (by unfold TOP64; omega)) (by omega)]
        unfold TOP64; omega
      have hcc : card (min % 65536) (chas c) ≤ card 65536 (chas c) := card_mono_n _ (by omega)
      by_cases he : keyNum (splitKey min).1 = keyNum (splitKey max).1
      · have hr0 : rankL (keyNum (splitKey max).1) (splitKey max).2 t = 0 := rankL_gt (by rw [← he]; exact hqB.2.2.1)
        have hr1 : rankL (keyNum (splitKey max).1) (splitKey max).2 ((keyNum (splitKey min).1, c) :: t) =
            card ((splitKey max).2 + 1) (chas c) := by
          simp only [rankL]; rw [if_neg (by omega), if_pos he]
        rw [hr1] at hsub ⊢
        rw [if_pos (c0.2 he), containerRank_eq hc, u64_add, Nat.zero_add, hstep _ hsub, hrest, hr0]
        congr 1; omega
      · have hr1 : rankL (keyNum (splitKey max).1) (splitKey max).2 ((keyNum (splitKey min).1, c) :: t) =
            card 65536 (chas c) + rankL (keyNum (splitKey max).1) (splitKey max).2 t := by
          simp only [rankL]; rw [if_pos (by omega)]
        rw [if_neg (fun h => he (c0.1 h)), containerCard_eq hc, u64_add, Nat.zero_add, hstep _ hcc, hrest, hr1]
        congr 1; omega

theorem r64RangeCardinality_eq {r : R64} {s : NSet} (h : Rep64 r s) {min max : Nat} (hmax : max < TOP64) :
    r64RangeCardinality r min max = (card max s - card min s) % TOP64 := by
  unfold r64RangeCardinality
  split
  · next hh =>
    have := card_mono_n s (show max ≤ min by omega)
    rw [Nat.sub_eq_zero_of_le this]
    rfl
  · next hh =>
    rw [r64RangeCardinalityClosed_eq h (by omega) (by omega), Nat.sub_add_cancel (by omega)]

end CRoaring
