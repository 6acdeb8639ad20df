import Verif.Lemmas.RunMem2
import Verif.Lemmas.MixedRel
import Verif.Lemmas.Convert3
import Verif.Lemmas.Convert2
/-! Run containers on memory: intersections, differences, negations (also in place) and conversions. -/
set_option linter.unusedSimpArgs false
set_option linter.unusedVariables false
namespace CRoaring
open Spec

/-- `start` and `end` of a run. -/
def ends (r : Rle) : Nat × Nat := (r.1, r.1 + r.2 + 1)

theorem loadRun_eq {b : RunBuf} {v : List Rle} (h : Holds b v) (i : Nat) (old : Nat × Nat) :
    loadRun b i old = .ok (if i < v.length then ends (rdR v i) else old) := by
  rw [loadRun, h.n]
  split
  · rename_i hi; rw [h.rd hi, ok_bind]; rfl
  · rfl

theorem drop_rdR {v : List Rle} {i : Nat} (h : i < v.length) : v.drop i = rdR v i :: v.drop (i + 1) := by
  rw [List.drop_eq_getElem_cons h, rdR_eq h]

/-- A destination that holds `acc` and has room for `m` more. -/
def Room (b : RunBuf) (acc : List Rle) (m : Nat) : Prop := Holds b acc ∧ acc.length + m ≤ b.mem.length

theorem Room.mono {b : RunBuf} {acc : List Rle} {m m' : Nat} (h : Room b acc m) (hm : m' ≤ m) : Room b acc m' := ⟨h.1, by have := h.2; omega⟩

theorem Room.push {b : RunBuf} {acc : List Rle} {m : Nat} (h : Room b acc m) (hm : 0 < m) (r : Rle) :
    ∃ b', b.push r = .ok b' ∧ Room b' (acc ++ [r]) (m - 1) := by
  have := h.2
  obtain ⟨b', e, g, l⟩ := h.1.push (by omega) r
  exact ⟨b', e, g, by simp; omega⟩

/-! ### Intersection -/

theorem runIntersectionBufLoop_spec {a b : RunBuf} {rs xs : List Rle} (ha : Holds a rs) (hb : Holds b xs) :
    ∀ fuel i j p q d acc, (rs.length - i) + (xs.length - j) < fuel → (i < rs.length → p = ends (rdR rs i)) →
      (j < xs.length → q = ends (rdR xs j)) → Room d acc ((rs.length - i) + (xs.length - j)) →
      ∃ o, runIntersectionBufLoop a b fuel i j p q d = .ok o ∧ Holds o (acc ++ runIntersectionLoop (rs.drop i) (xs.drop j)) := by
  intro fuel
  induction fuel with
  | zero => intro i j p q d acc h; omega
  | succ fuel ih =>
    intro i j p q d acc hf hp hq hd
    rw [runIntersectionBufLoop, ha.n, hb.n]
    by_cases c : i < rs.length ∧ j < xs.length
    · obtain ⟨ci, cj⟩ := c
      rw [if_pos ⟨ci, cj⟩]
      have ep := hp ci
      have eq := hq cj
      have hp' : ∀ k, k < rs.length → (if k < rs.length then ends (rdR rs k) else p) = ends (rdR rs k) := fun k hk => if_pos hk
      have hq' : ∀ k, k < xs.length → (if k < xs.length then ends (rdR xs k) else q) = ends (rdR xs k) := fun k hk => if_pos hk
      rw [drop_rdR ci, drop_rdR cj, runIntersectionLoop]
      have e1 : p.1 = (rdR rs i).1 := by rw [ep]; rfl
      have e2 : p.1 + (rdR rs i).2 + 1 = p.2 := by rw [ep]; rfl
      have e3 : q.1 = (rdR xs j).1 := by rw [eq]; rfl
      have e4 : q.1 + (rdR xs j).2 + 1 = q.2 := by rw [eq]; rfl
      simp only [← e1, e2, ← e3, e4, loadRun_eq ha, loadRun_eq hb, ok_bind]
      split
      · rw [← drop_rdR cj]
        exact ih (i + 1) j _ _ _ _ (by omega) (hp' _) hq (hd.mono (by omega))
      · split
        · rw [← drop_rdR ci]
          exact ih i (j + 1) _ _ _ _ (by omega) hp (hq' _) (hd.mono (by omega))
        · split
          · obtain ⟨d', e, g⟩ := hd.push (by omega) ((if p.1 > q.1 then p.1 else q.1), u16 ((p.2 : Int) - (if p.1 > q.1 then p.1 else q.1 : Nat) - 1))
            rw [e, ok_bind, List.append_cons]
            exact ih (i + 1) (j + 1) _ _ _ _ (by omega) (hp' _) (hq' _) (g.mono (by omega))
          · split
            · obtain ⟨d', e, g⟩ := hd.push (by omega) ((if p.1 > q.1 then p.1 else q.1), u16 ((p.2 : Int) - (if p.1 > q.1 then p.1 else q.1 : Nat) - 1))
              rw [e, ok_bind, List.append_cons, ← drop_rdR cj]
              exact ih (i + 1) j _ _ _ _ (by omega) (hp' _) hq (g.mono (by omega))
            · obtain ⟨d', e, g⟩ := hd.push (by omega) ((if p.1 > q.1 then p.1 else q.1), u16 ((q.2 : Int) - (if p.1 > q.1 then p.1 else q.1 : Nat) - 1))
              rw [e, ok_bind, List.append_cons, ← drop_rdR ci]
              exact ih i (j + 1) _ _ _ _ (by omega) hp (hq' _) (g.mono (by omega))
    · rw [if_neg c]
      refine ⟨d, rfl, ?_⟩
      have : runIntersectionLoop (rs.drop i) (xs.drop j) = [] := by
        by_cases ci : i < rs.length
        · rw [List.drop_eq_nil_of_le (as := xs) (by omega)]
          rw [runIntersectionLoop.eq_def]
          simp
        · rw [List.drop_eq_nil_of_le (as := rs) (by omega)]
          rw [runIntersectionLoop.eq_def]
      rw [this, List.append_nil]; exact hd.1

theorem room_start (mem : List Rle) {m : Nat} (h : m ≤ mem.length) : Room ⟨0, mem⟩ [] m := ⟨⟨mem, rfl⟩, by simpa using h⟩

theorem runIntersectionBuf_spec {fresh : Nat → List Rle} (hf : Fresh fresh) {a b : RunBuf} {rs xs : List Rle} (ha : Holds a rs)
    (hb : Holds b xs) (h1 : rs ≠ []) (h2 : xs ≠ []) (dst : RunBuf) :
    ∃ o, runIntersectionBuf fresh a b dst = .ok o ∧ Holds o (runIntersection rs xs) := by
  rw [runIntersectionBuf, ha.isFull h1, ok_bind, hb.isFull h2, ok_bind, runIntersection]
  by_cases c1 : runIsFull rs = true
  · rw [if_pos c1, if_pos c1]; exact hb.copy hf dst
  · rw [if_neg c1, if_neg c1]
    by_cases c2 : runIsFull xs = true
    · rw [if_pos c2, if_pos c2]; exact ha.copy hf dst
    · rw [if_neg c2, if_neg c2]
      have hcap := runReserve_length hf dst (a.n + b.n) false
      dsimp only
      rw [ha.n, hb.n] at hcap ⊢
      have hl1 : 0 < rs.length := List.length_pos_iff.2 h1
      have hl2 : 0 < xs.length := List.length_pos_iff.2 h2
      rw [ha.rd hl1, ok_bind, hb.rd hl2, ok_bind]
      obtain ⟨o, e, g⟩ := runIntersectionBufLoop_spec ha hb (rs.length + xs.length + 1) 0 0 (ends (rdR rs 0)) (ends (rdR xs 0)) _ []
        (by omega) (fun _ => rfl) (fun _ => rfl) (room_start _ hcap)
      exact ⟨o, e, by simpa using g⟩

/-! ### Difference -/

/-- What the difference still has to write. -/
def andnotL (rs xs : List Rle) (i j : Nat) (p : Nat × Nat) : List Rle :=
  if i < rs.length then runAndnotLoop p.1 p.2 (rs.drop (i + 1)) (xs.drop j) else []

theorem andnotRest_spec {a : RunBuf} {rs : List Rle} (ha : Holds a rs) {i : Nat} {p : Nat × Nat} {d : RunBuf} {acc : List Rle}
    (hd : Room d acc (rs.length - i)) :
    ∃ o, andnotRest a i p d = .ok o ∧ Holds o (acc ++ if i < rs.length then (p.1, u16 ((p.2 : Int) - p.1 - 1)) :: rs.drop (i + 1) else []) := by
  rw [andnotRest, ha.n]
  by_cases c : i < rs.length
  · rw [if_pos c, if_pos c]
    obtain ⟨d', e, g⟩ := hd.push (by omega) (p.1, u16 ((p.2 : Int) - p.1 - 1))
    rw [e, ok_bind]
    by_cases c2 : i + 1 < rs.length
    · rw [if_pos c2]
      obtain ⟨⟨rest, rfl⟩, hroom⟩ := g
      obtain ⟨rest2, rfl⟩ := ha
      simp only [List.length_append, List.length_singleton] at hroom ⊢
      rw [getRuns_eq (by simp; omega), ok_bind, cpRuns_eq (by simp; omega), ok_bind]
      have hl : (rs.drop (i + 1)).length = rs.length - (i + 1) := by simp
      have e1 : List.take (rs.length - (i + 1)) (List.drop (i + 1) (rs ++ rest2)) = rs.drop (i + 1) := by
        rw [List.drop_append_of_le_length (by omega), ← hl, List.take_left']; rfl
      rw [e1]
      have e2 : List.take (acc.length + 1) (acc ++ [(p.1, u16 ((p.2 : Int) - p.1 - 1))] ++ rest) =
          acc ++ [(p.1, u16 ((p.2 : Int) - p.1 - 1))] := by
        rw [List.take_left' (by simp)]
      rw [e2]
      refine ⟨_, rfl, ?_⟩
      refine ⟨List.drop (acc.length + 1 + (rs.drop (i + 1)).length) (acc ++ [(p.1, u16 ((p.2 : Int) - p.1 - 1))] ++ rest), ?_⟩
      congr 1
      · simp; omega
      · simp
    · rw [if_neg c2, List.drop_eq_nil_of_le (by omega)]
      exact ⟨d', rfl, g.1⟩
  · rw [if_neg c, if_neg c, List.append_nil]
    exact ⟨d, rfl, hd.1⟩

/-- What the difference writes from the next run of the first operand on. -/
def andnotNext (rs xs : List Rle) : List Rle :=
  match rs with
  | [] => []
  | r :: rs' => runAndnotLoop r.1 (r.1 + r.2 + 1) rs' xs

theorem runAndnotLoop_cons (start end_ : Nat) (rs : List Rle) (x : Rle) (xs : List Rle) : runAndnotLoop start end_ rs (x :: xs) =
    if end_ ≤ x.1 then (start, u16 ((end_ : Int) - start - 1)) :: andnotNext rs (x :: xs)
    else if x.1 + x.2 + 1 ≤ start then runAndnotLoop start end_ rs xs
    else if x.1 + x.2 + 1 < end_ then
      (if start < x.1 then [(start, u16 ((x.1 : Int) - start - 1))] else []) ++ runAndnotLoop (x.1 + x.2 + 1) end_ rs xs
    else (if start < x.1 then [(start, u16 ((x.1 : Int) - start - 1))] else []) ++ andnotNext rs (x :: xs) := by
  rw [runAndnotLoop.eq_def]
  cases rs <;> rfl

theorem andnotL_next {rs xs : List Rle} {i j : Nat} (p : Nat × Nat) :
    andnotL rs xs (i + 1) j (if i + 1 < rs.length then ends (rdR rs (i + 1)) else p) = andnotNext (rs.drop (i + 1)) (xs.drop j) := by
  rw [andnotL]
  by_cases c2 : i + 1 < rs.length
  · rw [if_pos c2, if_pos c2, drop_rdR c2]; rfl
  · rw [if_neg c2, List.drop_eq_nil_of_le (by omega)]; rfl

theorem andnotBufLoop_spec {a : RunBuf} {rs xs : List Rle} (ha : Holds a rs)
    {load : Nat → Nat × Nat → Out (Nat × Nat)} (hload : ∀ j q, load j q = .ok (if j < xs.length then ends (rdR xs j) else q)) :
    ∀ N fuel i j p q d acc, (rs.length - i) + (xs.length - j) ≤ N → 2 * N < fuel → (j < xs.length → q = ends (rdR xs j)) →
      Room d acc ((rs.length - i) + (xs.length - j)) →
      ∃ o, andnotBufLoop a xs.length load fuel i j p q d = .ok o ∧ Holds o (acc ++ andnotL rs xs i j p) := by
  intro N
  induction N with
  | zero =>
    intro fuel i j p q d acc hN hf hq hd
    obtain ⟨f, rfl⟩ : ∃ f, fuel = f + 1 := ⟨fuel - 1, by omega⟩
    rw [andnotBufLoop, ha.n, if_neg (by omega), andnotL, if_neg (by omega)]
    obtain ⟨o, e, g⟩ := andnotRest_spec ha (p := p) (hd.mono (m' := rs.length - i) (by omega))
    rw [if_neg (by omega)] at g
    exact ⟨o, e, g⟩
  | succ N ih =>
    intro fuel i j p q d acc hN hf hq hd
    obtain ⟨f, rfl⟩ : ∃ f, fuel = f + 2 := ⟨fuel - 2, by omega⟩
    rw [andnotBufLoop, ha.n]
    by_cases c : i < rs.length ∧ j < xs.length
    · obtain ⟨ci, cj⟩ := c
      rw [if_pos ⟨ci, cj⟩]
      have eq := hq cj
      have hq' : ∀ k, k < xs.length → (if k < xs.length then ends (rdR xs k) else q) = ends (rdR xs k) := fun k hk => if_pos hk
      have e3 : q.1 = (rdR xs j).1 := by rw [eq]; rfl
      have e4 : q.1 + (rdR xs j).2 + 1 = q.2 := by rw [eq]; rfl
      have hnext := andnotL_next (rs := rs) (xs := xs) (i := i) (j := j) p
      have hloop : andnotL rs xs i j p = runAndnotLoop p.1 p.2 (rs.drop (i + 1)) (rdR xs j :: xs.drop (j + 1)) := by
        rw [andnotL, if_pos ci, drop_rdR cj]
      have htail : ∀ d', Room d' (acc ++ if p.1 < q.1 then [(p.1, u16 ((q.1 : Int) - p.1 - 1))] else [])
            (rs.length - i + (xs.length - j) - 1) → ¬ p.2 ≤ q.1 →
          ∃ o, (if q.2 < p.2 then andnotBufLoop a xs.length load (f + 1) i j (q.2, p.2) q d'
            else andnotBufLoop a xs.length load (f + 1) (i + 1) j (if i + 1 < rs.length then ends (rdR rs (i + 1)) else p) q d') = .ok o ∧
          Holds o (acc ++ if q.2 < p.2 then
            (if p.1 < q.1 then [(p.1, u16 ((q.1 : Int) - p.1 - 1))] else []) ++ runAndnotLoop q.2 p.2 (rs.drop (i + 1)) (xs.drop (j + 1))
            else (if p.1 < q.1 then [(p.1, u16 ((q.1 : Int) - p.1 - 1))] else []) ++ andnotNext (rs.drop (i + 1)) (rdR xs j :: xs.drop (j + 1))) := by
        intro d' g c1
        by_cases c4 : q.2 < p.2
        · rw [if_pos c4, if_pos c4, ← List.append_assoc]
          rw [andnotBufLoop, ha.n, if_pos ⟨ci, cj⟩]
          rw [if_neg (show ¬ (q.2, p.2).2 ≤ q.1 from c1), if_pos (show q.2 ≤ (q.2, p.2).1 from Nat.le_refl _), hload, ok_bind]
          obtain ⟨o, e, g⟩ := ih f i (j + 1) (q.2, p.2) _ d' _ (by omega) (by omega) (hq' _) (g.mono (by omega))
          rw [andnotL, if_pos ci] at g
          exact ⟨o, e, g⟩
        · rw [if_neg c4, if_neg c4, ← List.append_assoc, ← drop_rdR cj, ← hnext]
          exact ih _ _ _ _ _ _ _ (by omega) (by omega) hq (g.mono (by omega))
      rw [hloop, runAndnotLoop_cons]
      simp only [← e3, e4, loadRun_eq ha, hload, ok_bind]
      by_cases c1 : p.2 ≤ q.1
      · rw [if_pos c1, if_pos c1]
        obtain ⟨d', e, g⟩ := hd.push (by omega) (p.1, u16 ((p.2 : Int) - p.1 - 1))
        rw [e, ok_bind, List.append_cons, ← drop_rdR cj, ← hnext]
        exact ih _ _ _ _ _ _ _ (by omega) (by omega) hq (g.mono (by omega))
      · rw [if_neg c1, if_neg c1]
        by_cases c2 : q.2 ≤ p.1
        · rw [if_pos c2, if_pos c2]
          obtain ⟨o, e, g⟩ := ih (f + 1) i (j + 1) p _ d acc (by omega) (by omega) (hq' _) (hd.mono (by omega))
          rw [andnotL, if_pos ci] at g
          exact ⟨o, e, g⟩
        · rw [if_neg c2, if_neg c2]
          by_cases c3 : p.1 < q.1
          · obtain ⟨d', e, g⟩ := hd.push (by omega) (p.1, u16 ((q.1 : Int) - p.1 - 1))
            have := htail d' (by rw [if_pos c3]; exact g) c1
            rw [if_pos c3] at this
            rw [if_pos c3, e, ok_bind, if_pos c3]
            exact this
          · have := htail d (by rw [if_neg c3, List.append_nil]; exact hd.mono (by omega)) c1
            rw [if_neg c3] at this
            rw [if_neg c3, if_neg c3]
            exact this
    · rw [if_neg c]
      obtain ⟨o, e, g⟩ := andnotRest_spec ha (p := p) (hd.mono (m' := rs.length - i) (by omega))
      refine ⟨o, e, ?_⟩
      rw [andnotL]
      by_cases ci : i < rs.length
      · rw [if_pos ci] at g ⊢
        rw [List.drop_eq_nil_of_le (as := xs) (by omega), runAndnotLoop]
        exact g
      · rw [if_neg ci] at g ⊢
        exact g

theorem runAndnotBuf_spec {fresh : Nat → List Rle} (hf : Fresh fresh) {a b : RunBuf} {rs xs : List Rle} (ha : Holds a rs)
    (hb : Holds b xs) (h1 : rs ≠ []) (h2 : xs ≠ []) (dst : RunBuf) :
    ∃ o, runAndnotBuf fresh a b dst = .ok o ∧ Holds o (runAndnot rs xs) := by
  have hcap := runReserve_length hf dst (a.n + b.n) false
  have hl1 : 0 < rs.length := List.length_pos_iff.2 h1
  have hl2 : 0 < xs.length := List.length_pos_iff.2 h2
  rw [runAndnotBuf]
  rw [ha.n, hb.n] at hcap ⊢
  rw [ha.rd hl1, ok_bind, hb.rd hl2, ok_bind]
  obtain ⟨o, e, g⟩ := andnotBufLoop_spec ha (loadRun_eq hb) (rs.length + xs.length) (2 * (rs.length + xs.length) + 1) 0 0
    (ends (rdR rs 0)) (ends (rdR xs 0)) _ [] (by omega) (by omega) (fun _ => rfl) (room_start _ hcap)
  refine ⟨o, e, ?_⟩
  rw [andnotL, if_pos hl1] at g
  cases rs with
  | nil => cases h1 rfl
  | cons r rs => simpa [runAndnot, ends, rdR] using g

theorem length_le_runCard (rs : List Rle) : rs.length ≤ runCard rs := by
  unfold runCard; omega

theorem runArrayAndnotBuf_spec {fresh : Nat → List Rle} (hf : Fresh fresh) {a : RunBuf} {rs : List Rle} {l : List Nat} (ha : Holds a rs)
    (h1 : rs ≠ []) (h2 : l ≠ []) :
    ∃ o, runArrayAndnotBuf fresh a l = .ok o ∧ Holds o (runAndnot rs (l.map fun v => (v, 0))) := by
  have hl1 : 0 < rs.length := List.length_pos_iff.2 h1
  have hl2 : 0 < l.length := List.length_pos_iff.2 h2
  have hc := length_le_runCard rs
  have hv : ∀ j, j < l.length → rdVal l j = .ok (l[j]?.getD 0) := fun j hj => by simp [rdVal, hj]
  have hload : ∀ j q, loadVal l j q = .ok (if j < (l.map fun v => (v, 0)).length then ends (rdR (l.map fun v => (v, 0)) j) else q) := by
    intro j q
    rw [loadVal, List.length_map]
    split
    · rename_i hj
      rw [hv j hj, ok_bind, rdR_eq (by simpa using hj)]
      simp [ends, hj]
    · rfl
  rw [runArrayAndnotBuf]
  rw [ha.n, ha.vals, ha.rd hl1, ok_bind, hv 0 hl2, ok_bind]
  obtain ⟨o, e, g⟩ := andnotBufLoop_spec ha hload (rs.length + l.length) (2 * (rs.length + l.length) + 1) 0 0
    (ends (rdR rs 0)) (l[0]?.getD 0, l[0]?.getD 0 + 1) (runCreateBuf fresh (runCard rs + l.length)) [] (by simp) (by omega)
    (fun hj => by rw [rdR_eq hj]; simp [ends, hl2])
    ⟨holds_create fresh _, by simp [runCreateBuf]; rw [hf]; omega⟩
  rw [List.length_map] at e
  refine ⟨o, e, ?_⟩
  rw [andnotL, if_pos hl1] at g
  cases rs with
  | nil => cases h1 rfl
  | cons r rs => simpa [runAndnot, ends, rdR] using g

end CRoaring
