import Verif.Model.SimdMerge
import Verif.Lemmas.Simd4
set_option linter.unusedSimpArgs false
set_option linter.unusedVariables false
/-
The network `sse_merge`, and what `store_unique` and `store_unique_xor` store.
-/
namespace CRoaring
open Spec

/-- Sorted, values may occur more than once. -/
def NSorted (l : List Nat) : Prop := l.Pairwise (· ≤ ·)

/-! ### Lanes -/

theorem ofBytes_bytesOf (v : V8) : ofBytes (bytesOf v) = v := by
  induction v with
  | nil => rfl
  | cons x t ih =>
    have : bytesOf (x :: t) = x % 256 :: x / 256 :: bytesOf t := by simp [bytesOf]
    rw [this, ofBytes, ih]
    congr 1
    omega

theorem bytesOf_append (a b : V8) : bytesOf (a ++ b) = bytesOf a ++ bytesOf b := by simp [bytesOf]

theorem bytesOf_drop (v : V8) (n : Nat) : (bytesOf v).drop (2 * n) = bytesOf (v.drop n) := by
  induction n generalizing v with
  | zero => simp
  | succ n ih =>
    cases v with
    | nil => simp [bytesOf]
    | cons x t =>
      have : bytesOf (x :: t) = x % 256 :: x / 256 :: bytesOf t := by simp [bytesOf]
      rw [this, show 2 * (n + 1) = 2 * n + 1 + 1 by omega]
      simpa using ih t

theorem bytesOf_take (v : V8) (n : Nat) : (bytesOf v).take (2 * n) = bytesOf (v.take n) := by
  induction n generalizing v with
  | zero => simp [bytesOf]
  | succ n ih =>
    cases v with
    | nil => simp [bytesOf]
    | cons x t =>
      have : ∀ t, bytesOf (x :: t) = x % 256 :: x / 256 :: bytesOf t := by simp [bytesOf]
      rw [this, show 2 * (n + 1) = 2 * n + 1 + 1 by omega]
      simp [this, ih t]

/-- Alignment by whole lanes. -/
theorem alignr_lanes (a b : V8) (n : Nat) : alignr a b (2 * n) = ((b ++ a).drop n).take 8 := by
  rw [alignr, ← bytesOf_append, bytesOf_drop, show 16 = 2 * 8 from rfl, bytesOf_take, ofBytes_bytesOf]

/-! ### `sse_merge` -/

/-- One step of the network, on lanes. -/
def netStep (p : List Nat × List Nat) : List Nat × List Nat :=
  let m := List.zipWith min p.1 p.2
  (((m ++ m).drop 1).take 8, List.zipWith max p.1 p.2)

theorem mergeStep_eq (p : V8 × V8) : mergeStep p = netStep p := by
  rw [mergeStep, netStep, show (2 : Nat) = 2 * 1 from rfl, alignr_lanes]

theorem mergeStep_fun : mergeStep = netStep := funext mergeStep_eq

def net8 (p : List Nat × List Nat) : List Nat × List Nat :=
  netStep (netStep (netStep (netStep (netStep (netStep (netStep (netStep p)))))))

theorem sseMerge_eq (a b : V8) : sseMerge a b = net8 (a, b) := by rw [sseMerge, mergeStep_fun, net8]

/-- Both vectors have eight lanes. -/
def L8 (p : List Nat × List Nat) : Prop := p.1.length = 8 ∧ p.2.length = 8

theorem netStep_l8 {p : List Nat × List Nat} (h : L8 p) : L8 (netStep p) := by
  obtain ⟨h1, h2⟩ := h
  constructor <;> simp [netStep, h1, h2]

theorem net8_l8 {p : List Nat × List Nat} (h : L8 p) : L8 (net8 p) :=
  netStep_l8 (netStep_l8 (netStep_l8 (netStep_l8 (netStep_l8 (netStep_l8 (netStep_l8 (netStep_l8 h)))))))

theorem zipWith_map_mono (f : Nat → Nat) (hf : ∀ x y, x ≤ y → f x ≤ f y) (a b : List Nat) :
    List.zipWith min (a.map f) (b.map f) = (List.zipWith min a b).map f ∧
    List.zipWith max (a.map f) (b.map f) = (List.zipWith max a b).map f := by
  induction a generalizing b with
  | nil => simp
  | cons x t ih =>
    cases b with
    | nil => simp
    | cons y u =>
      simp only [List.map_cons, List.zipWith_cons_cons, (ih u).1, (ih u).2, List.cons.injEq, and_true]
      rcases Nat.le_total x y with h | h
      · have := hf x y h
        rw [Nat.min_eq_left h, Nat.max_eq_right h, Nat.min_eq_left this, Nat.max_eq_right this]; simp
      · have := hf y x h
        rw [Nat.min_eq_right h, Nat.max_eq_left h, Nat.min_eq_right this, Nat.max_eq_left this]; simp

/-- The network commutes with monotone functions. -/
theorem netStep_map (f : Nat → Nat) (hf : ∀ x y, x ≤ y → f x ≤ f y) (p : List Nat × List Nat) :
    netStep (p.1.map f, p.2.map f) = ((netStep p).1.map f, (netStep p).2.map f) := by
  rw [netStep, netStep]
  simp only [(zipWith_map_mono f hf p.1 p.2).1, (zipWith_map_mono f hf p.1 p.2).2, List.map_take, List.map_drop,
    List.map_append]

theorem net8_map (f : Nat → Nat) (hf : ∀ x y, x ≤ y → f x ≤ f y) (p : List Nat × List Nat) :
    net8 (p.1.map f, p.2.map f) = ((net8 p).1.map f, (net8 p).2.map f) := by
  simp only [net8]
  simp only [netStep_map f hf]

/-- Zeros and then ones. -/
def zo (i : Nat) : List Nat := List.replicate (8 - i) 0 ++ List.replicate i 1

/-- The network sorts vectors of zeros and ones. -/
theorem net8_zo : ∀ i < 9, ∀ j < 9, ((net8 (zo i, zo j)).1 ++ (net8 (zo i, zo j)).2).Pairwise (· ≤ ·) := by decide +kernel

theorem map_threshold {l : List Nat} (h : NSorted l) (t : Nat) :
    ∃ i, i ≤ l.length ∧ l.map (fun x => if t ≤ x then 1 else 0) = List.replicate (l.length - i) 0 ++ List.replicate i 1 := by
  induction l with
  | nil => exact ⟨0, by simp, by simp⟩
  | cons x u ih =>
    obtain ⟨h1, h2⟩ := List.pairwise_cons.1 h
    obtain ⟨i, hi, e⟩ := ih h2
    by_cases hx : t ≤ x
    · refine ⟨u.length + 1, by simp, ?_⟩
      have : (x :: u).map (fun x => if t ≤ x then 1 else 0) = List.replicate (u.length + 1) 1 := by
        rw [List.eq_replicate_iff]
        refine ⟨by simp, ?_⟩
        intro y hy
        obtain ⟨z, hz, rfl⟩ := List.mem_map.1 hy
        rcases List.mem_cons.1 hz with rfl | hz
        · simp [hx]
        · have := h1 z hz
          rw [if_pos (by omega)]
      rw [this]
      simp
    · refine ⟨i, by simp; omega, ?_⟩
      rw [List.map_cons, e, if_neg hx, List.length_cons, show u.length + 1 - i = (u.length - i) + 1 by omega, List.replicate_succ]
      rfl

theorem net8_sorted {a b : List Nat} (ha : NSorted a) (hb : NSorted b) (la : a.length = 8) (lb : b.length = 8) :
    NSorted ((net8 (a, b)).1 ++ (net8 (a, b)).2) := by
  have hm' : ∀ t, net8 (a.map (fun x => if t ≤ x then 1 else 0), b.map (fun x => if t ≤ x then 1 else 0)) =
      ((net8 (a, b)).1.map (fun x => if t ≤ x then 1 else 0), (net8 (a, b)).2.map (fun x => if t ≤ x then 1 else 0)) := fun t =>
    net8_map (fun x => if t ≤ x then 1 else 0) (by intro x y hxy; split <;> split <;> omega) (a, b)
  generalize net8 (a, b) = N at hm'
  generalize hL : N.1 ++ N.2 = L
  rw [NSorted, List.pairwise_iff_getElem]
  intro i j hi hj hij
  rcases Nat.lt_or_ge L[j] L[i] with h | h
  · exfalso
    generalize ht : L[i] = t at h
    have hm := hm' t
    obtain ⟨p, hp, ea⟩ := map_threshold ha t
    obtain ⟨q, hq, eb⟩ := map_threshold hb t
    have hs := net8_zo p (by omega) q (by omega)
    have e1 : zo p = a.map (fun x => if t ≤ x then 1 else 0) := by rw [ea, zo, la]
    have e2 : zo q = b.map (fun x => if t ≤ x then 1 else 0) := by rw [eb, zo, lb]
    rw [e1, e2, hm, ← List.map_append, hL, List.pairwise_iff_getElem] at hs
    have := hs i j (by simpa using hi) (by simpa using hj) hij
    simp only [List.getElem_map] at this
    rw [ht, if_pos (Nat.le_refl _), if_neg (by omega)] at this
    omega
  · exact h

theorem zipWith_min_max_perm (a b : List Nat) (h : a.length = b.length) :
    (List.zipWith min a b ++ List.zipWith max a b).Perm (a ++ b) := by
  induction a generalizing b with
  | nil => cases b <;> simp_all
  | cons x t ih =>
    cases b with
    | nil => simp at h
    | cons y u =>
      have ih := ih u (by simpa using h)
      simp only [List.zipWith_cons_cons]
      have e1 : (min x y :: List.zipWith min t u ++ max x y :: List.zipWith max t u).Perm
          (min x y :: max x y :: (List.zipWith min t u ++ List.zipWith max t u)) :=
        List.Perm.cons _ List.perm_middle
      have e2 : (x :: t ++ y :: u).Perm (x :: y :: (t ++ u)) := List.Perm.cons _ List.perm_middle
      refine e1.trans (List.Perm.trans ?_ e2.symm)
      rcases Nat.le_total x y with h | h
      · rw [Nat.min_eq_left h, Nat.max_eq_right h]
        exact (ih.cons _).cons _
      · rw [Nat.min_eq_right h, Nat.max_eq_left h]
        exact ((ih.cons _).cons _).trans (List.Perm.swap _ _ _)

theorem rot_perm {m : List Nat} (h : m.length = 8) : (((m ++ m).drop 1).take 8).Perm m := by
  match m, h with
  | [a, b, c, d, e, f, g, k], _ =>
    show ([b, c, d, e, f, g, k] ++ [a]).Perm (a :: [b, c, d, e, f, g, k])
    exact List.perm_append_singleton _ _

theorem netStep_perm {p : List Nat × List Nat} (h : L8 p) : ((netStep p).1 ++ (netStep p).2).Perm (p.1 ++ p.2) := by
  refine List.Perm.trans ?_ (zipWith_min_max_perm p.1 p.2 (by rw [h.1, h.2]))
  exact List.Perm.append_right _ (rot_perm (by simp [h.1, h.2]))

theorem net8_perm {p : List Nat × List Nat} (h : L8 p) : ((net8 p).1 ++ (net8 p).2).Perm (p.1 ++ p.2) := by
  have h1 := netStep_l8 h
  have h2 := netStep_l8 h1
  have h3 := netStep_l8 h2
  have h4 := netStep_l8 h3
  have h5 := netStep_l8 h4
  have h6 := netStep_l8 h5
  have h7 := netStep_l8 h6
  exact (netStep_perm h7).trans ((netStep_perm h6).trans ((netStep_perm h5).trans ((netStep_perm h4).trans
    ((netStep_perm h3).trans ((netStep_perm h2).trans ((netStep_perm h1).trans (netStep_perm h)))))))

/-- `sse_merge` merges two sorted vectors. -/
theorem sseMerge_spec {a b : V8} (ha : NSorted a) (hb : NSorted b) (la : a.length = 8) (lb : b.length = 8) :
    (sseMerge a b).1.length = 8 ∧ (sseMerge a b).2.length = 8 ∧ NSorted ((sseMerge a b).1 ++ (sseMerge a b).2) ∧
      ((sseMerge a b).1 ++ (sseMerge a b).2).Perm (a ++ b) := by
  rw [sseMerge_eq]
  have h8 : L8 (a, b) := ⟨la, lb⟩
  exact ⟨(net8_l8 h8).1, (net8_l8 h8).2, net8_sorted ha hb la lb, net8_perm h8⟩

/-! ### What is stored -/

/-- The elements of `v` at which the second list has `false`. -/
def sel : List Nat → List Bool → List Nat
  | x :: t, b :: bs => if b then sel t bs else x :: sel t bs
  | _, _ => []

theorem sel_range (v : List Nat) (bs : List Bool) (h : v.length = bs.length) :
    ((List.range v.length).filter (fun i => !(bs.getD i false))).map (fun i => v.getD i 0) = sel v bs := by
  induction v generalizing bs with
  | nil => simp [sel]
  | cons x t ih =>
    cases bs with
    | nil => simp at h
    | cons b bs =>
      have ih := ih bs (by simpa using h)
      rw [List.length_cons, List.range_succ_eq_map, sel]
      rw [← ih]
      cases b
      · simp [List.filter_map, Function.comp_def]
      · simp [List.filter_map, Function.comp_def]

theorem sel_length (v : List Nat) (bs : List Bool) (h : v.length = bs.length) :
    (sel v bs).length = v.length - (bs.filter (fun b => b)).length ∧ (bs.filter (fun b => b)).length ≤ v.length := by
  induction v generalizing bs with
  | nil => cases bs <;> simp_all [sel]
  | cons x t ih =>
    cases bs with
    | nil => simp at h
    | cons b bs =>
      obtain ⟨h1, h2⟩ := ih bs (by simpa using h)
      cases b
      · simp [sel, h1]; omega
      · simp [sel, h1]; omega

theorem popcnt32_bitMask {bs : List Bool} (h : bs.length ≤ 32) : popcnt32 (bitMask bs) = (bs.filter (fun b => b)).length := by
  have := popcnt32_mask (v := bs.map (fun b => b.toNat)) (by simpa using h) (fun n => n == 1)
  rw [List.map_map] at this
  have e : bs.map ((fun n => n == 1) ∘ fun b => b.toNat) = bs := by
    rw [List.map_congr_left (g := id)]
    · simp
    · intro b _; cases b <;> rfl
  rw [e] at this
  rw [this, List.filter_map, List.length_map]
  congr 1
  apply List.filter_congr
  intro b _
  cases b <;> rfl

/-- The shuffle with a row of `uniqshuf`: the lanes whose bit is not set are moved together. -/
theorem uniq_sel {v : V8} {bs : List Bool} (hv : v.length = 8) (hb : bs.length = 8) :
    shuffleEpi8 v (uniqShuf.getD (bitMask bs) []) = sel v bs ++ List.replicate (8 - (sel v bs).length) 0 ∧
    8 - popcnt32 (bitMask bs) = (sel v bs).length := by
  have hlt : bitMask bs < 256 := by
    have := bitMask_lt bs; rw [hb] at this; exact this
  have hl := sel_length v bs (by omega)
  constructor
  · rw [uniqShuf_row _ hlt, shuffle_keepRow]
    have e : (List.range 8).filter (fun i => (255 - bitMask bs).testBit i) = (List.range 8).filter (fun i => !(bs.getD i false)) := by
      apply List.filter_congr
      intro i hi
      have hi : i < 8 := by simpa using hi
      have := Nat.testBit_two_pow_sub_succ (x := bitMask bs) (n := 8) (by omega) i
      rw [show 2 ^ 8 - (bitMask bs + 1) = 255 - bitMask bs by omega] at this
      rw [this, testBit_bitMask]
      simp [hi]
    rw [e]
    have := sel_range v bs (by omega)
    rw [hv] at this
    rw [this, ← this, List.length_map]
  · rw [popcnt32_bitMask (by omega), hl.1, hv]

/-- What is left of `l` after a value `p` when a value equal to its predecessor is left out. -/
def dedupFrom : Nat → List Nat → List Nat
  | _, [] => []
  | p, x :: t => if x = p then dedupFrom x t else x :: dedupFrom x t

theorem dedupFrom_sel (p : Nat) (l : List Nat) :
    dedupFrom p l = sel l (List.zipWith (fun x y => x == y) (p :: l) l) := by
  induction l generalizing p with
  | nil => rfl
  | cons x t ih =>
    rw [dedupFrom, List.zipWith_cons_cons, sel, ← ih]
    by_cases h : x = p
    · rw [if_pos h, if_pos (by simp [h])]
    · rw [if_neg h, if_neg (by simp; omega)]

theorem dedupFrom_append (p : Nat) (l m : List Nat) : dedupFrom p (l ++ m) = dedupFrom p l ++ dedupFrom (l.getLastD p) m := by
  induction l generalizing p with
  | nil => rfl
  | cons x t ih =>
    rw [List.cons_append, dedupFrom, dedupFrom, ih]
    have : (x :: t).getLastD p = t.getLastD x := by cases t <;> simp [List.getLastD]
    rw [this]
    split <;> rfl

theorem dedupFrom_length (p : Nat) (l : List Nat) : (dedupFrom p l).length ≤ l.length := by
  induction l generalizing p with
  | nil => simp [dedupFrom]
  | cons x t ih =>
    have := ih x
    rw [dedupFrom]
    split <;> simp <;> omega

theorem zipWith_take_cons {β : Type} (f : Nat → Nat → β) (p : Nat) (l : List Nat) (n : Nat) (h : l.length ≤ n) :
    List.zipWith f ((p :: l).take n) l = List.zipWith f (p :: l) l := by
  induction l generalizing p n with
  | nil => simp
  | cons x t ih =>
    cases n with
    | zero => simp at h
    | succ n =>
      rw [List.take_succ_cons, List.zipWith_cons_cons, List.zipWith_cons_cons, ih x n (by simpa using h)]

theorem storeUnique_spec {old new : V8} (ho : old.length = 8) (hn : new.length = 8) :
    (storeUnique old new).1 = dedupFrom (old.getLastD 0) new ++ List.replicate (8 - (dedupFrom (old.getLastD 0) new).length) 0 ∧
    (storeUnique old new).2 = (dedupFrom (old.getLastD 0) new).length := by
  have e : alignr new old (16 - 2) = ((old.getLastD 0) :: new).take 8 := by
    rw [show 16 - 2 = 2 * 7 from rfl, alignr_lanes]
    match old, ho with
    | [a, b, c, d, e, f, g, k], _ => rfl
  rw [storeUnique]
  simp only [movemask]
  rw [e, zipWith_take_cons _ _ _ _ (by omega)]
  have := uniq_sel (v := new) (bs := List.zipWith (fun x y => x == y) ((old.getLastD 0) :: new) new) hn (by simp [hn])
  rw [← dedupFrom_sel] at this
  exact this

/-- Of the sequence `p1, l…` without its last value, those values that differ from the values before and behind them; `p2` is the value before `p1`. -/
def xorFrom : Nat → Nat → List Nat → List Nat
  | _, _, [] => []
  | p2, p1, x :: t => if p1 = p2 ∨ p1 = x then xorFrom p1 x t else p1 :: xorFrom p1 x t

theorem xorFrom_sel (p2 p1 : Nat) (l : List Nat) :
    xorFrom p2 p1 l = sel (p1 :: l) (List.zipWith (fun x y => x || y)
      (List.zipWith (fun x y => x == y) (p1 :: l) (p2 :: p1 :: l)) (List.zipWith (fun x y => x == y) (p1 :: l) l)) := by
  induction l generalizing p1 p2 with
  | nil => rfl
  | cons x t ih =>
    have e := ih p1 x
    simp only [xorFrom, List.zipWith_cons_cons, sel] at e ⊢
    rw [← e]
    by_cases h : p1 = p2 ∨ p1 = x
    · rw [if_pos h, if_pos (by simpa using h)]
    · rw [if_neg h, if_neg (by simpa using h)]

theorem sel_take (v : List Nat) (bs : List Bool) (n : Nat) (h : bs.length ≤ n) : sel (v.take n) bs = sel v bs := by
  induction v generalizing bs n with
  | nil => simp
  | cons x t ih =>
    cases bs with
    | nil => cases n <;> simp [sel]
    | cons b bs =>
      cases n with
      | zero => simp at h
      | succ n => rw [List.take_succ_cons, sel, sel, ih bs n (by simpa using h)]

theorem storeUniqueXor_spec {old new : V8} (ho : old.length = 8) (hn : new.length = 8) :
    (storeUniqueXor old new).1 = xorFrom (old.getD 6 0) (old.getD 7 0) new ++
      List.replicate (8 - (xorFrom (old.getD 6 0) (old.getD 7 0) new).length) 0 ∧
    (storeUniqueXor old new).2 = (xorFrom (old.getD 6 0) (old.getD 7 0) new).length := by
  match old, ho, new, hn with
  | [a, b, c, d, e, f, g, k], _, [a', b', c', d', e', f', g', k'], _ =>
    rw [storeUniqueXor, show 16 - 2 = 2 * 7 from rfl, show 16 - 4 = 2 * 6 from rfl, alignr_lanes, alignr_lanes]
    simp only [movemask]
    have := uniq_sel (v := [k, a', b', c', d', e', f', g'])
      (bs := List.zipWith (fun x y => x || y) (List.zipWith (fun x y => x == y) [k, a', b', c', d', e', f', g'] [g, k, a', b', c', d', e', f'])
        (List.zipWith (fun x y => x == y) [k, a', b', c', d', e', f', g'] [a', b', c', d', e', f', g', k'])) rfl rfl
    have e := xorFrom_sel g k [a', b', c', d', e', f', g', k']
    have e2 : xorFrom g k [a', b', c', d', e', f', g', k'] = sel [k, a', b', c', d', e', f', g']
      (List.zipWith (fun x y => x || y) (List.zipWith (fun x y => x == y) [k, a', b', c', d', e', f', g'] [g, k, a', b', c', d', e', f'])
        (List.zipWith (fun x y => x == y) [k, a', b', c', d', e', f', g'] [a', b', c', d', e', f', g', k'])) := by
      rw [e, ← sel_take _ _ 8 (by simp)]
      rfl
    rw [← e2] at this
    exact this

end CRoaring
