import Verif.Model.BitmapMemAsk
import Verif.Lemmas.BitmapMem14
import Verif.Lemmas.Query2
import Verif.Lemmas.Iter64b
set_option linter.unusedSimpArgs false
set_option linter.unusedVariables false

/-! Bitmaps in memory: ranks of many values, iteration and the index of Jaccard (C132). -/

namespace CRoaring
open Spec

theorem writeOut_over (l : List Nat) : ∀ (ans : List Nat) (pos : Nat), pos + l.length ≤ ans.length →
    writeOut ans pos l = .ok (over ans pos l) := by
  induction l with
  | nil => intro ans pos h; rw [writeOut, over_nil]
  | cons v l ih =>
    intro ans pos h
    rw [List.length_cons] at h
    rw [writeOut, if_pos (by omega), ih _ _ (by rw [List.length_set]; omega), over_one (by omega), over_cons (by omega)]

theorem rankMany_loop (b : RaBuf) (fuel : Nat) : ∀ (A t : Bitmap) (size : Nat) (xs ans : List Nat) (pos : Nat), RHolds b (A ++ t) →
    BInv (A ++ t) → xs.Pairwise (· ≤ ·) → (∀ x ∈ xs, x < 4294967296) → t.length + xs.length < fuel → pos + xs.length ≤ ans.length →
    rbRankManyLoopBuf b fuel A.length size xs ans pos = .ok (over ans pos (rbRankManyLoop fuel size xs t)) ∧
      (rbRankManyLoop fuel size xs t).length ≤ xs.length := by
  induction fuel with
  | zero => intro A t size xs ans pos _ _ _ _ hf _; omega
  | succ fuel ih =>
    intro A t size xs ans pos h hi hs hlt hf hp
    cases xs with
    | nil => rw [rbRankManyLoopBuf, rbRankManyLoop, over_nil]; exact ⟨rfl, Nat.le_refl _⟩
    | cons x xs =>
      cases t with
      | nil =>
        rw [rbRankManyLoopBuf, rbRankManyLoop, over_nil, if_neg (by rw [h.size]; simp)]
        exact ⟨rfl, Nat.zero_le _⟩
      | cons q t =>
        obtain ⟨k, c⟩ := q
        have hbm := bp_mid.1 hi
        have eA : A ++ (k, c) :: t = (A ++ [(k, c)]) ++ t := by simp
        rw [rbRankManyLoopBuf, rbRankManyLoop, if_pos (by rw [h.size]; simp), h.loadCell, ok_bind]
        simp only [List.length_cons] at hf hp
        by_cases h1 : x / 65536 > k
        · simp only [if_pos h1]
          have := ih (A ++ [(k, c)]) t (u64 (size + containerCard c)) (x :: xs) ans pos (eA ▸ h) (eA ▸ hi) hs hlt
            (by simp only [List.length_cons]; omega) (by simp only [List.length_cons]; omega)
          rw [List.length_append, List.length_singleton] at this
          exact this
        · simp only [if_neg h1]
          by_cases h2 : x / 65536 = k
          · simp only [if_pos h2]
            have hr := containerRankMany_eq hbm.2.2.1.1.rep size (x :: xs) hs hlt
            have hlen : (containerRankMany size (x :: xs) c).1.length + (containerRankMany size (x :: xs) c).2.length = xs.length + 1 := by
              rw [hr]
              simp only [List.length_map]
              rw [← List.length_append, List.takeWhile_append_dropWhile, List.length_cons]
            have hpos : 1 ≤ (containerRankMany size (x :: xs) c).1.length := by
              rw [hr]
              simp [List.takeWhile_cons]
            have hsub : (containerRankMany size (x :: xs) c).2.Sublist (x :: xs) := by
              rw [hr]
              exact List.dropWhile_sublist _
            generalize containerRankMany size (x :: xs) c = p at *
            rw [writeOut_over _ _ _ (by omega), ok_bind]
            have := ih A ((k, c) :: t) size p.2 (over ans pos p.1) (pos + p.1.length) h hi (hs.sublist hsub)
              (fun y hy => hlt y (hsub.subset hy)) (by simp only [List.length_cons]; omega)
              (by rw [over_length (by omega)]; omega)
            refine ⟨?_, ?_⟩
            · rw [this.1, over_over (by have := this.2; omega)]
            · have := this.2
              simp only [List.length_append, List.length_cons]
              omega
          · simp only [if_neg h2]
            rw [writeOut_over _ _ _ (by simp; omega), ok_bind]
            have := ih A ((k, c) :: t) size xs (over ans pos [size]) (pos + 1) h hi (List.pairwise_cons.1 hs).2
              (fun y hy => hlt y (List.mem_cons_of_mem _ hy)) (by simp only [List.length_cons]; omega)
              (by rw [over_length (by simp; omega)]; omega)
            refine ⟨?_, ?_⟩
            · rw [this.1, over_cons (by have := this.2; omega)]
            · have := this.2
              simp only [List.length_cons]
              omega

theorem rbRankManyBuf_spec {b : RaBuf} {r : Bitmap} (h : RHolds b r) (hi : BInv r) {xs ans : List Nat} (hs : xs.Pairwise (· ≤ ·))
    (hlt : ∀ x ∈ xs, x < 4294967296) (ha : xs.length ≤ ans.length) :
    ∃ l rest, xs = l ++ rest ∧ rbRankManyBuf b xs ans = .ok (l.map (fun x => card (x + 1) (bhas r)) ++ ans.drop l.length) ∧
      (∀ x ∈ l, ∃ v, bhas r v = true ∧ x / 65536 ≤ v / 65536) ∧ ∀ x ∈ rest, ∀ v, bhas r v = true → v / 65536 < x / 65536 := by
  have hl := (rankMany_loop b (r.length + xs.length + 1) [] r 0 xs ans 0 (by simpa using h) (by simpa using hi) hs hlt (by omega)
    (by omega)).1
  rw [rbRankManyBuf, h.size]
  rw [List.length_nil] at hl
  by_cases hne : r = []
  · subst hne
    refine ⟨[], xs, rfl, ?_, by simp, fun x _ v hv => by cases hv⟩
    rw [hl]
    cases xs with
    | nil => rw [rbRankManyLoop, over_nil]; simp
    | cons x t => rw [rbRankManyLoop, over_nil]; simp
  · have hm := (rbMaximum_spec hi).2 hne
    have := rbRankManyLoop_eq (K := rbMaximum r / 65536) (r.length + xs.length + 1) [] r xs hi hs hlt (by simp) ?_ ?_ (by omega)
    · refine ⟨xs.takeWhile (fun x => decide (x / 65536 ≤ rbMaximum r / 65536)), xs.dropWhile (fun x => decide (x / 65536 ≤ rbMaximum r / 65536)),
        List.takeWhile_append_dropWhile.symm, ?_, ?_, ?_⟩
      · rw [hl, show (0 : Nat) = bcard [] from rfl, this, over]
        simp [bcard]
      · intro x hx
        have := List.all_takeWhile (l := xs) (p := fun x => decide (x / 65536 ≤ rbMaximum r / 65536))
        rw [List.all_eq_true] at this
        exact ⟨rbMaximum r, hm.1, of_decide_eq_true (this x hx)⟩
      · intro x hx v hv
        have hle := hm.2 v hv
        have hd : rbMaximum r / 65536 < x / 65536 := by
          revert hx
          clear hl this ha
          induction xs with
          | nil => intro hx; cases hx
          | cons y xs ih =>
            have hp := List.pairwise_cons.1 hs
            rw [List.dropWhile_cons]
            split
            · exact ih hp.2 (fun z hz => hlt z (List.mem_cons_of_mem _ hz))
            · rename_i hn
              intro hx
              have hy : ¬ y / 65536 ≤ rbMaximum r / 65536 := by simpa using hn
              have hyx : y ≤ x := by
                rcases List.mem_cons.1 hx with e | e
                · omega
                · exact hp.1 x e
              have := Nat.div_le_div_right (c := 65536) hyx
              omega
        have := Nat.div_le_div_right (c := 65536) hle
        omega
    · intro p hp
      obtain ⟨y, hy⟩ := (hi.all p hp).2
      have hlt := (hi.all p hp).1.rep.lt hy
      have := hm.2 (p.1 * 65536 + y) (by rw [bhas_mem hi hp hlt]; exact hy)
      omega
    · obtain ⟨p, hp, e, _⟩ := bhas_key hm.1
      exact ⟨p, by simpa using hp, e⟩

theorem rbIterateLoopBuf_spec {σ : Type} (g : σ → Nat → Container → σ × Bool) (out : σ → Bitmap → σ × Bool)
    (h0 : ∀ s, out s [] = (s, true))
    (h1 : ∀ s k c t, out s ((k, c) :: t) = if !(g s (k <<< 16) c).2 then ((g s (k <<< 16) c).1, false) else out (g s (k <<< 16) c).1 t)
    (B : Bitmap) : ∀ {A : Bitmap} {b : RaBuf} (s : σ), RHolds b (A ++ B) → rbIterateLoopBuf g b.mem B.length A.length s = .ok (out s B) := by
  induction B with
  | nil => intro A b s h; rw [h0]; rfl
  | cons p t ih =>
    intro A b s h
    obtain ⟨k, c⟩ := p
    have := ih (g s (k <<< 16) c).1 h.next
    rw [List.length_append, List.length_singleton] at this
    rw [List.length_cons, rbIterateLoopBuf, h.loadCell, ok_bind, h1]
    simp only [this]
    split <;> rfl

theorem rbIterateBuf_spec {σ : Type} (f : σ → Nat → σ × Bool) (s : σ) {b : RaBuf} {r : Bitmap} (h : RHolds b r) :
    rbIterateBuf f s b = .ok (rbIterate f s r) := by
  have := rbIterateLoopBuf_spec (fun s base c => containerIterate f s base c) (rbIterate f) (fun _ => rfl) (fun _ _ _ _ => rfl) r
    (A := []) (b := b) s (by simpa using h)
  rw [rbIterateBuf, h.size]
  exact this

theorem rbIterate64Buf_spec {σ : Type} (f : σ → Nat → σ × Bool) (high : Nat) (s : σ) {b : RaBuf} {r : Bitmap} (h : RHolds b r) :
    rbIterate64Buf f high s b = .ok (rbIterate64 f high s r) := by
  have := rbIterateLoopBuf_spec (fun s base c => containerIterate64 f s base high c) (rbIterate64 f high) (fun _ => rfl) (fun _ _ _ _ => rfl) r
    (A := []) (b := b) s (by simpa using h)
  rw [rbIterate64Buf, h.size]
  exact this

theorem rbJaccardBuf_spec {b1 b2 : RaBuf} {r1 r2 : Bitmap} (h1 : RHolds b1 r1) (i1 : BInv r1) (h2 : RHolds b2 r2) (i2 : BInv r2) :
    rbJaccardBuf b1 b2 = .ok (rbJaccard r1 r2) := by
  rw [rbJaccardBuf, rbCardinalityBuf_spec h1, rbCardinalityBuf_spec h2, ok_bind, ok_bind, rbAndCardinalityBuf_spec h1 i1 h2 i2, ok_bind, rbJaccard]

end CRoaring
