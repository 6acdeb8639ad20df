import Verif.Lemmas.RunMem
import Verif.Lemmas.MixedUnion
import Verif.Lemmas.MixedDiff
/-! Run containers on memory: unions, also in place, and symmetric differences. -/
set_option linter.unusedSimpArgs false
set_option linter.unusedVariables false
namespace CRoaring

/-- The merging loops as a recursion on the inputs that are left. -/
def mergeL {α β γ : Type} (key1 : α → Nat) (key2 : β → Nat) (f1 : γ → α → γ) (f2 : γ → β → γ) : List α → List β → γ → γ
  | [], [], acc => acc
  | [], x :: xs, acc => mergeL key1 key2 f1 f2 [] xs (f2 acc x)
  | r :: rs, [], acc => mergeL key1 key2 f1 f2 rs [] (f1 acc r)
  | r :: rs, x :: xs, acc =>
    if key1 r ≤ key2 x then mergeL key1 key2 f1 f2 rs (x :: xs) (f1 acc r)
    else mergeL key1 key2 f1 f2 (r :: rs) xs (f2 acc x)
termination_by rs xs => rs.length + xs.length

theorem mergeBuf_spec {σ α β γ : Type} {key1 : α → Nat} {key2 : β → Nat} {get1 : σ → Nat → Out α} {get2 : σ → Nat → Out β}
    {app1 : σ → α → Out σ} {app2 : σ → β → Out σ} {f1 : γ → α → γ} {f2 : γ → β → γ} {as : List α} {bs : List β}
    (Inv : σ → γ → Nat → Prop)
    (h1 : ∀ s c m a, Inv s c (m + 1) → ∃ s', app1 s a = .ok s' ∧ Inv s' (f1 c a) m)
    (h2 : ∀ s c m b, Inv s c (m + 1) → ∃ s', app2 s b = .ok s' ∧ Inv s' (f2 c b) m)
    (g1 : ∀ s c m i a, Inv s c m → as[i]? = some a → get1 s i = .ok a)
    (g2 : ∀ s c m i a, Inv s c m → bs[i]? = some a → get2 s i = .ok a) :
    ∀ fuel i j s c, (as.length - i) + (bs.length - j) < fuel → Inv s c ((as.length - i) + (bs.length - j)) →
      ∃ s', mergeBuf key1 key2 get1 get2 app1 app2 as.length bs.length fuel i j s = .ok s' ∧
        Inv s' (mergeL key1 key2 f1 f2 (as.drop i) (bs.drop j) c) 0 := by
  intro fuel
  induction fuel with
  | zero => intro i j s c h; omega
  | succ fuel ih =>
    intro i j s c hf hinv
    rw [mergeBuf]
    by_cases ci : i < as.length
    · rw [if_pos ci, List.drop_eq_getElem_cons ci]
      have ga := g1 s c _ i as[i] hinv (List.getElem?_eq_getElem ci)
      by_cases cj : j < bs.length
      · rw [if_pos cj, List.drop_eq_getElem_cons cj]
        have gb := g2 s c _ j bs[j] hinv (List.getElem?_eq_getElem cj)
        rw [ga, ok_bind, gb, ok_bind, mergeL]
        by_cases ck : key1 as[i] ≤ key2 bs[j]
        · rw [if_pos ck, if_pos ck]
          obtain ⟨s1, e1, i1⟩ := h1 s c ((as.length - (i + 1)) + (bs.length - j)) as[i]
            (by rwa [show as.length - (i + 1) + (bs.length - j) + 1 = as.length - i + (bs.length - j) by omega])
          rw [e1, ok_bind, ← List.drop_eq_getElem_cons cj]
          exact ih _ _ _ _ (by omega) i1
        · rw [if_neg ck, if_neg ck]
          obtain ⟨s1, e1, i1⟩ := h2 s c ((as.length - i) + (bs.length - (j + 1))) bs[j]
            (by rwa [show as.length - i + (bs.length - (j + 1)) + 1 = as.length - i + (bs.length - j) by omega])
          rw [e1, ok_bind, ← List.drop_eq_getElem_cons ci]
          exact ih _ _ _ _ (by omega) i1
      · rw [if_neg cj, ga, ok_bind]
        obtain ⟨s1, e1, i1⟩ := h1 s c ((as.length - (i + 1)) + (bs.length - j)) as[i]
          (by rwa [show as.length - (i + 1) + (bs.length - j) + 1 = as.length - i + (bs.length - j) by omega])
        rw [e1, ok_bind]
        have hn : bs.drop j = [] := List.drop_eq_nil_of_le (by omega)
        have := ih (i + 1) j s1 _ (by omega) i1
        rw [hn] at this ⊢
        rw [mergeL]
        exact this
    · rw [if_neg ci]
      have hn : as.drop i = [] := List.drop_eq_nil_of_le (by omega)
      by_cases cj : j < bs.length
      · rw [if_pos cj]
        have gb := g2 s c _ j bs[j] hinv (List.getElem?_eq_getElem cj)
        obtain ⟨s1, e1, i1⟩ := h2 s c ((as.length - i) + (bs.length - (j + 1))) bs[j]
          (by rwa [show as.length - i + (bs.length - (j + 1)) + 1 = as.length - i + (bs.length - j) by omega])
        rw [gb, ok_bind, e1, ok_bind, List.drop_eq_getElem_cons cj]
        have := ih i (j + 1) s1 _ (by omega) i1
        rw [hn] at this ⊢
        rw [mergeL]
        exact this
      · rw [if_neg cj]
        have hn2 : bs.drop j = [] := List.drop_eq_nil_of_le (by omega)
        rw [hn, hn2, mergeL]
        refine ⟨s, rfl, ?_⟩
        rwa [show as.length - i + (bs.length - j) = 0 by omega] at hinv

/-- A container under construction: `acc` (last run first) is in front of `M` places, and everything from `M` on is `R`. -/
structure Acc (b : RunBuf) (acc : List Rle) (m M : Nat) (R : List Rle) : Prop where
  holds : Holds b acc.reverse
  room : acc.length + m ≤ M
  cap : M ≤ b.mem.length
  rest : b.mem.drop M = R

/-- The same with `previousrl`. -/
def AccP (M : Nat) (R : List Rle) (s : RunAcc) (acc : List Rle) (m : Nat) : Prop := Acc s.1 acc m M R ∧ s.2 = acc.head?

theorem Acc.mono {b : RunBuf} {acc : List Rle} {m m' M : Nat} {R : List Rle} (h : Acc b acc m M R) (hm : m' ≤ m) : Acc b acc m' M R :=
  ⟨h.holds, by have := h.room; omega, h.cap, h.rest⟩

theorem Acc.push {b : RunBuf} {acc : List Rle} {m M : Nat} {R : List Rle} (h : Acc b acc (m + 1) M R) (r : Rle) :
    ∃ b', b.push r = .ok b' ∧ Acc b' (r :: acc) m M R := by
  have h1 := h.room
  have h2 := h.cap
  obtain ⟨b', e, g, l⟩ := h.holds.push (by simp; omega) r
  refine ⟨b', e, ⟨by simpa using g, by simp; omega, by omega, ?_⟩⟩
  have hn : b.n = acc.length := by rw [h.holds.n]; simp
  rw [push_eq (by omega)] at e
  injection e with e
  rw [← e, ← h.rest]
  exact List.drop_set_of_lt (by omega)

theorem Acc.wr {b : RunBuf} {acc : List Rle} {m M : Nat} {R : List Rle} (h : Acc b acc (m + 1) M R) (r : Rle) :
    ∃ mem, wrRun b.mem b.n r = .ok mem ∧ Acc ⟨b.n + 1, mem⟩ (r :: acc) m M R := by
  obtain ⟨b', e, g⟩ := h.push r
  have hn : b.n = acc.length := by rw [h.holds.n]; simp
  have h1 := h.room
  have h2 := h.cap
  refine ⟨_, wrRun_lt (by omega) r, ?_⟩
  rw [push_eq (by omega)] at e
  injection e with e
  rw [e]; exact g

theorem Acc.setLast {b : RunBuf} {p : Rle} {acc : List Rle} {m M : Nat} {R : List Rle} (h : Acc b (p :: acc) m M R) (r : Rle) :
    ∃ b', b.put (b.n - 1) r = .ok b' ∧ Acc b' (r :: acc) m M R := by
  have h1 := h.room
  have h2 := h.cap
  have hn : b.n = acc.length + 1 := by rw [h.holds.n]; simp
  simp at h1
  obtain ⟨b', e, g, l⟩ := h.holds.put (i := acc.length) (by simp) r
  rw [hn, Nat.add_sub_cancel]
  refine ⟨b', e, ⟨?_, by simp; omega, by omega, ?_⟩⟩
  · have : (p :: acc).reverse.set acc.length r = (r :: acc).reverse := by
      simp [List.set_append_right]
    rwa [this] at g
  · rw [put_eq (by omega)] at e
    injection e with e
    rw [← e, ← h.rest]
    exact List.drop_set_of_lt (by omega)

theorem Acc.rdLast {b : RunBuf} {p : Rle} {acc : List Rle} {m M : Nat} {R : List Rle} (h : Acc b (p :: acc) m M R) :
    rdRun b.mem (b.n - 1) = .ok p := by
  have hn : b.n = acc.length + 1 := by rw [h.holds.n]; simp
  rw [hn, Nat.add_sub_cancel, h.holds.rd (by simp)]
  simp [rdR, List.getD]

theorem appendBuf_spec {M : Nat} {R : List Rle} {s : RunAcc} {acc : List Rle} {m : Nat} (h : AccP M R s acc (m + 1)) (vl : Rle) :
    ∃ s', appendBuf s vl = .ok s' ∧ AccP M R s' (runAppend acc vl) m := by
  obtain ⟨h1, h2⟩ := h
  rw [appendBuf, runAppend.eq_def, h2]
  cases acc with
  | nil =>
    obtain ⟨mem, e, g⟩ := h1.wr vl
    dsimp only [List.head?]
    rw [e, ok_bind]
    exact ⟨_, rfl, g, rfl⟩
  | cons p acc =>
    dsimp only [List.head?]
    split
    · obtain ⟨mem, e, g⟩ := h1.wr vl
      rw [e, ok_bind]
      exact ⟨_, rfl, g, rfl⟩
    · split
      · obtain ⟨b', e, g⟩ := h1.setLast (p.1, u16 (((vl.1 + vl.2 + 1 : Nat) : Int) - 1 - p.1))
        rw [e, ok_bind]
        exact ⟨_, rfl, g.mono (by omega), rfl⟩
      · exact ⟨_, rfl, h1.mono (by omega), h2⟩

theorem appendValueBuf_spec {M : Nat} {R : List Rle} {s : RunAcc} {acc : List Rle} {m : Nat} (h : AccP M R s acc (m + 1)) (val : Nat) :
    ∃ s', appendValueBuf s val = .ok s' ∧ AccP M R s' (runAppendValue acc val) m := by
  obtain ⟨h1, h2⟩ := h
  rw [appendValueBuf, runAppendValue.eq_def, h2]
  cases acc with
  | nil =>
    obtain ⟨mem, e, g⟩ := h1.wr (val, 0)
    dsimp only [List.head?]
    rw [e, ok_bind]
    exact ⟨_, rfl, g, rfl⟩
  | cons p acc =>
    dsimp only [List.head?]
    split
    · obtain ⟨mem, e, g⟩ := h1.wr (val, 0)
      rw [e, ok_bind]
      exact ⟨_, rfl, g, rfl⟩
    · split
      · obtain ⟨b', e, g⟩ := h1.setLast (p.1, (p.2 + 1) % 65536)
        rw [e, ok_bind]
        exact ⟨_, rfl, g.mono (by omega), rfl⟩
      · exact ⟨_, rfl, h1.mono (by omega), h2⟩

/-- What an append may do to the number of runs. -/
theorem smartAppend_length (acc : List Rle) (s l : Nat) : (smartAppend acc s l).length ≤ acc.length + 1 := by
  unfold smartAppend
  cases acc with
  | nil => simp
  | cons p acc =>
    dsimp only
    repeat' split
    all_goals simp <;> omega

theorem smartAppendBuf_spec {M : Nat} {R : List Rle} {b : RunBuf} {acc : List Rle} {m : Nat} (h : Acc b acc (m + 1) M R) (start length : Nat) :
    ∃ b', smartAppendBuf b start length = .ok b' ∧ Acc b' (smartAppend acc start length) m M R := by
  have hn : b.n = acc.length := by rw [h.holds.n]; simp
  rw [smartAppendBuf, smartAppend.eq_def]
  cases acc with
  | nil =>
    rw [if_pos (by simpa using hn)]
    exact h.push _
  | cons p acc =>
    rw [if_neg (by simp at hn; omega), h.rdLast, ok_bind]
    dsimp only
    split
    · exact h.push _
    · split
      · obtain ⟨b', e, g⟩ := h.setLast (p.1, (p.2 + (length + 1)) % 65536)
        exact ⟨b', e, g.mono (by omega)⟩
      · split
        · split
          · obtain ⟨b', e, g⟩ := h.setLast (u16 ((start + length + 1 : Nat) : Int),
              u16 (((p.1 + p.2 + 1 : Nat) : Int) - ((start + length + 1 : Nat) : Int) - 1))
            exact ⟨b', e, g.mono (by omega)⟩
          · split
            · obtain ⟨b', e, g⟩ := h.setLast (u16 ((p.1 + p.2 + 1 : Nat) : Int),
                u16 (((start + length + 1 : Nat) : Int) - ((p.1 + p.2 + 1 : Nat) : Int) - 1))
              exact ⟨b', e, g.mono (by omega)⟩
            · refine ⟨_, rfl, ⟨?_, by have := h.room; simp at this; omega, h.cap, h.rest⟩⟩
              obtain ⟨rest, e⟩ := h.holds
              subst e
              exact ⟨p :: rest, by simp⟩
        · obtain ⟨b1, e1, g1⟩ := h.setLast (p.1, u16 ((start : Int) - p.1 - 1))
          rw [e1, ok_bind]
          split
          · exact g1.push _
          · split
            · exact g1.push _
            · exact ⟨b1, rfl, g1.mono (by omega)⟩

/-! ### The merges -/

theorem runUnionLoop_eq (rs xs acc : List Rle) : runUnionLoop rs xs acc = mergeL (·.1) (·.1) runAppend runAppend rs xs acc := by
  induction rs, xs, acc using runUnionLoop.induct with
  | case1 => rw [runUnionLoop, mergeL]
  | case2 acc x xs ih => rw [runUnionLoop, mergeL, ih]
  | case3 acc r rs ih => rw [runUnionLoop, mergeL, ih]
  | case4 acc r rs x xs h ih => rw [runUnionLoop, mergeL, if_pos h, if_pos h, ih]
  | case5 acc r rs x xs h ih => rw [runUnionLoop, mergeL, if_neg h, if_neg h, ih]

theorem runXorLoop_eq (rs xs acc : List Rle) :
    runXorLoop rs xs acc = mergeL (·.1) (·.1) (fun a r => smartAppend a r.1 r.2) (fun a r => smartAppend a r.1 r.2) rs xs acc := by
  induction rs, xs, acc using runXorLoop.induct with
  | case1 => rw [runXorLoop, mergeL]
  | case2 acc x xs ih => rw [runXorLoop, mergeL, ih]
  | case3 acc r rs ih => rw [runXorLoop, mergeL, ih]
  | case4 acc r rs x xs h ih => rw [runXorLoop, mergeL, if_pos h, if_pos h, ih]
  | case5 acc r rs x xs h ih => rw [runXorLoop, mergeL, if_neg h, if_neg h, ih]

theorem arrayRunUnionLoop_eq (l : List Nat) (rs acc : List Rle) :
    arrayRunUnionLoop l rs acc = mergeL (·.1) id runAppend runAppendValue rs l acc := by
  induction l, rs, acc using arrayRunUnionLoop.induct with
  | case1 => rw [arrayRunUnionLoop, mergeL]
  | case2 acc x xs ih => rw [arrayRunUnionLoop, mergeL, ih]
  | case3 acc r rs ih => rw [arrayRunUnionLoop, mergeL, ih]
  | case4 acc r rs x xs h ih => rw [arrayRunUnionLoop, mergeL, if_pos h, ih]; simp only [id_eq, if_pos h]
  | case5 acc r rs x xs h ih => rw [arrayRunUnionLoop, mergeL, if_neg h, ih]; simp only [id_eq, if_neg h]

theorem arrayRunLazyXorLoop_merge (l : List Nat) (rs acc : List Rle) :
    arrayRunLazyXorLoop l rs acc = mergeL (·.1) id (fun a r => smartAppend a r.1 r.2) (fun a v => smartAppend a v 0) rs l acc := by
  induction l, rs, acc using arrayRunLazyXorLoop.induct with
  | case1 => rw [arrayRunLazyXorLoop, mergeL]
  | case2 acc x xs ih => rw [arrayRunLazyXorLoop, mergeL, ih]
  | case3 acc r rs ih => rw [arrayRunLazyXorLoop, mergeL, ih]
  | case4 acc r rs x xs h ih => rw [arrayRunLazyXorLoop, mergeL, if_pos h, ih]; simp only [id_eq, if_pos h]
  | case5 acc r rs x xs h ih => rw [arrayRunLazyXorLoop, mergeL, if_neg h, ih]; simp only [id_eq, if_neg h]

theorem Holds.isFull {b : RunBuf} {v : List Rle} (h : Holds b v) (hne : v ≠ []) : isFullBuf b = .ok (runIsFull v) := by
  have hl : 0 < v.length := List.length_pos_iff.2 hne
  rw [isFullBuf, h.rd hl, ok_bind, h.n]
  rfl

theorem rdVal_get {l : List Nat} {i v : Nat} (h : l[i]? = some v) : rdVal l i = .ok v := by simp [rdVal, h]

theorem Holds.get {b : RunBuf} {v : List Rle} (h : Holds b v) {i : Nat} {r : Rle} (hr : v[i]? = some r) : rdRun b.mem i = .ok r := by
  obtain ⟨hi, e⟩ := List.getElem?_eq_some_iff.1 hr
  rw [h.rd hi, rdR_eq hi, e]

theorem acc_start (mem : List Rle) {M : Nat} (h : M ≤ mem.length) : AccP M (mem.drop M) (⟨0, mem⟩, none) [] M :=
  ⟨⟨⟨mem, rfl⟩, by simp, h, rfl⟩, rfl⟩

theorem runUnionBuf_spec {fresh : Nat → List Rle} (hf : Fresh fresh) {a b : RunBuf} {rs xs : List Rle} (ha : Holds a rs) (hb : Holds b xs)
    (h1 : rs ≠ []) (h2 : xs ≠ []) (dst : RunBuf) : ∃ o, runUnionBuf fresh a b dst = .ok o ∧ Holds o (runUnion rs xs) := by
  rw [runUnionBuf, ha.isFull h1, ok_bind, hb.isFull h2, ok_bind, runUnion]
  by_cases c1 : runIsFull rs = true
  · rw [if_pos c1, if_pos c1]; exact ha.copy hf dst
  · rw [if_neg c1, if_neg c1]
    by_cases c2 : runIsFull xs = true
    · rw [if_pos c2, if_pos c2]; exact hb.copy hf dst
    · rw [if_neg c2, if_neg c2]
      have hcap := runReserve_length hf dst (a.n + b.n) false
      dsimp only
      rw [ha.n, hb.n] at hcap ⊢
      have hs := acc_start _ hcap
      generalize (runReserve fresh dst (rs.length + xs.length) false).mem = mem at *
      obtain ⟨s', e, i⟩ := mergeBuf_spec (AccP (rs.length + xs.length) (mem.drop (rs.length + xs.length)))
        (key1 := (·.1)) (key2 := (·.1)) (get1 := fun _ i => rdRun a.mem i) (get2 := fun _ i => rdRun b.mem i)
        (fun s c m r hi => appendBuf_spec hi r) (fun s c m r hi => appendBuf_spec hi r)
        (fun s c m i r _ hr => ha.get hr) (fun s c m i r _ hr => hb.get hr)
        (rs.length + xs.length + 1) 0 0 _ [] (by omega) hs
      rw [e, ok_bind, runUnionLoop_eq]
      exact ⟨_, rfl, i.1.holds⟩

/-- The input of an in-place union after it has been moved to the end. -/
theorem moved {b : RunBuf} {v : List Rle} (h : Holds b v) {M : Nat} (hc : M + v.length ≤ b.mem.length) (hM : v.length ≤ M) :
    ∃ mem, mvRuns b.mem M 0 b.n = .ok mem ∧ M ≤ mem.length ∧ ∀ (i : Nat) (r : Rle), v[i]? = some r → (mem.drop M)[i]? = some r := by
  obtain ⟨rest, rfl⟩ := h
  dsimp only at *
  rw [mvRuns_eq (by simp) hc]
  have hc' : M + v.length ≤ v.length + rest.length := by simpa using hc
  refine ⟨_, rfl, by simp only [List.length_append, List.length_take, List.length_drop]; omega, ?_⟩
  intro i r hr
  obtain ⟨hi, e⟩ := List.getElem?_eq_some_iff.1 hr
  simp only [List.drop_zero, List.take_left']
  rw [List.append_assoc, List.drop_append_of_le_length (by simp at hc ⊢; omega), List.getElem?_append_right (by simp)]
  rw [show i - (List.drop M (List.take M (v ++ rest))).length = i by simp, List.getElem?_append_left hi]
  exact hr

theorem moved_get {M : Nat} {R : List Rle} {b : RunBuf} {acc : List Rle} {m i : Nat} {r : Rle} (h : Acc b acc m M R) (hr : R[i]? = some r) :
    rdRun b.mem (M + i) = .ok r := by
  rw [← h.rest, List.getElem?_drop] at hr
  simp [rdRun, hr]

theorem runUnionInplaceBuf_spec {fresh : Nat → List Rle} (hf : Fresh fresh) {a b : RunBuf} {rs xs : List Rle} (ha : Holds a rs)
    (hb : Holds b xs) (h1 : rs ≠ []) (h2 : xs ≠ []) : ∃ o, runUnionInplaceBuf fresh a b = .ok o ∧ Holds o (runUnion rs xs) := by
  rw [runUnionInplaceBuf, ha.isFull h1, ok_bind, hb.isFull h2, ok_bind, runUnion]
  by_cases c1 : runIsFull rs = true
  · rw [if_pos c1, if_pos c1]; exact ⟨a, rfl, ha⟩
  · rw [if_neg c1, if_neg c1]
    by_cases c2 : runIsFull xs = true
    · rw [if_pos c2, if_pos c2]; exact hb.copy hf a
    · rw [if_neg c2, if_neg c2]
      have hcap := runReserve_length hf a (a.n + b.n + a.n) true
      have ha' := ha.reserve (fresh := fresh) (a.n + b.n + a.n)
      dsimp only
      rw [ha.n, hb.n] at hcap ha' ⊢
      generalize runReserve fresh a (rs.length + xs.length + rs.length) true = a' at *
      obtain ⟨mem, e0, hM, hin⟩ := moved ha' hcap (by omega)
      rw [e0, ok_bind, ha'.n]
      have hs := acc_start _ hM
      obtain ⟨s', e, i⟩ := mergeBuf_spec (AccP (rs.length + xs.length) (mem.drop (rs.length + xs.length)))
        (key1 := (·.1)) (key2 := (·.1)) (get1 := fun s i => rdRun s.1.mem (rs.length + xs.length + i)) (get2 := fun _ i => rdRun b.mem i)
        (fun s c m r hi => appendBuf_spec hi r) (fun s c m r hi => appendBuf_spec hi r)
        (fun s c m i r hi hr => moved_get hi.1 (hin i r hr)) (fun s c m i r _ hr => hb.get hr)
        (rs.length + xs.length + 1) 0 0 _ [] (by omega) hs
      rw [e, ok_bind, runUnionLoop_eq]
      exact ⟨_, rfl, i.1.holds⟩

theorem arrayRunUnionBuf_spec {fresh : Nat → List Rle} (hf : Fresh fresh) (l : List Nat) {b : RunBuf} {xs : List Rle} (hb : Holds b xs)
    (h2 : xs ≠ []) (dst : RunBuf) : ∃ o, arrayRunUnionBuf fresh l b dst = .ok o ∧ Holds o (arrayRunUnion l xs) := by
  rw [arrayRunUnionBuf, hb.isFull h2, ok_bind, arrayRunUnion]
  by_cases c2 : runIsFull xs = true
  · rw [if_pos c2, if_pos c2]; exact hb.copy hf dst
  · rw [if_neg c2, if_neg c2]
    have hcap : xs.length + l.length ≤ (runGrow fresh dst (2 * (l.length + b.n)) false).mem.length := by
      rw [runGrow_length hf]
      have := (runNewCapacity_ge dst.mem.length (2 * (l.length + b.n))).1
      rw [hb.n] at *
      omega
    dsimp only
    have hs := acc_start _ hcap
    generalize (runGrow fresh dst (2 * (l.length + b.n)) false).mem = mem at *
    rw [hb.n]
    obtain ⟨s', e, i⟩ := mergeBuf_spec (AccP (xs.length + l.length) (mem.drop (xs.length + l.length)))
      (key1 := (·.1)) (key2 := id) (get1 := fun _ i => rdRun b.mem i) (get2 := fun _ j => rdVal l j)
      (fun s c m r hi => appendBuf_spec hi r) (fun s c m r hi => appendValueBuf_spec hi r)
      (fun s c m i r _ hr => hb.get hr) (fun s c m i r _ hr => rdVal_get hr)
      (xs.length + l.length + 1) 0 0 _ [] (by omega) hs
    rw [e, ok_bind, arrayRunUnionLoop_eq]
    exact ⟨_, rfl, i.1.holds⟩

theorem arrayRunInplaceUnionBuf_spec {fresh : Nat → List Rle} (hf : Fresh fresh) (l : List Nat) {b : RunBuf} {xs : List Rle}
    (hb : Holds b xs) (h2 : xs ≠ []) : ∃ o, arrayRunInplaceUnionBuf fresh l b = .ok o ∧ Holds o (arrayRunUnion l xs) := by
  rw [arrayRunInplaceUnionBuf, hb.isFull h2, ok_bind, arrayRunUnion]
  by_cases c2 : runIsFull xs = true
  · rw [if_pos c2, if_pos c2]; exact ⟨b, rfl, hb⟩
  · rw [if_neg c2, if_neg c2]
    have hcap := runReserve_length hf b (l.length + b.n + b.n) true
    have hb' := hb.reserve (fresh := fresh) (l.length + b.n + b.n)
    dsimp only
    rw [hb.n] at hcap hb' ⊢
    generalize runReserve fresh b (l.length + xs.length + xs.length) true = b' at *
    obtain ⟨mem, e0, hM, hin⟩ := moved hb' hcap (by omega)
    rw [e0, ok_bind, hb'.n]
    have hs := acc_start _ hM
    obtain ⟨s', e, i⟩ := mergeBuf_spec (AccP (l.length + xs.length) (mem.drop (l.length + xs.length)))
      (key1 := (·.1)) (key2 := id) (get1 := fun s i => rdRun s.1.mem (l.length + xs.length + i)) (get2 := fun _ j => rdVal l j)
      (fun s c m r hi => appendBuf_spec hi r) (fun s c m r hi => appendValueBuf_spec hi r)
      (fun s c m i r hi hr => moved_get hi.1 (hin i r hr)) (fun s c m i r _ hr => rdVal_get hr)
      (xs.length + l.length + 1) 0 0 _ [] (by omega) (by simpa [Nat.add_comm] using hs)
    rw [e, ok_bind, arrayRunUnionLoop_eq]
    exact ⟨_, rfl, i.1.holds⟩

theorem runXorBuf_spec {fresh : Nat → List Rle} (hf : Fresh fresh) {a b : RunBuf} {rs xs : List Rle} (ha : Holds a rs) (hb : Holds b xs)
    (dst : RunBuf) : ∃ o, runXorBuf fresh a b dst = .ok o ∧ Holds o (runXor rs xs) := by
  have hcap := runReserve_length hf dst (a.n + b.n) false
  rw [runXorBuf, runXor]
  rw [ha.n, hb.n] at hcap ⊢
  have hs := (acc_start _ hcap).1
  generalize (runReserve fresh dst (rs.length + xs.length) false).mem = mem at *
  obtain ⟨s', e, i⟩ := mergeBuf_spec (fun s acc m => Acc s acc m (rs.length + xs.length) (mem.drop (rs.length + xs.length)))
    (key1 := (·.1)) (key2 := (·.1)) (get1 := fun _ i => rdRun a.mem i) (get2 := fun _ i => rdRun b.mem i)
    (app1 := fun s r => smartAppendBuf s r.1 r.2) (app2 := fun s r => smartAppendBuf s r.1 r.2)
    (f1 := fun a r => smartAppend a r.1 r.2) (f2 := fun a r => smartAppend a r.1 r.2)
    (fun s c m r hi => smartAppendBuf_spec hi r.1 r.2) (fun s c m r hi => smartAppendBuf_spec hi r.1 r.2)
    (fun s c m i r _ hr => ha.get hr) (fun s c m i r _ hr => hb.get hr)
    (rs.length + xs.length + 1) 0 0 _ [] (by omega) hs
  rw [e, runXorLoop_eq]
  exact ⟨_, rfl, i.holds⟩

theorem arrayRunLazyXorBuf_spec {fresh : Nat → List Rle} (hf : Fresh fresh) (l : List Nat) {b : RunBuf} {xs : List Rle} (hb : Holds b xs)
    (dst : RunBuf) : ∃ o, arrayRunLazyXorBuf fresh l b dst = .ok o ∧ Holds o (arrayRunLazyXor l xs) := by
  have hcap : xs.length + l.length ≤ (runGrow fresh dst (l.length + b.n) false).mem.length := by
    rw [runGrow_length hf]
    have := (runNewCapacity_ge dst.mem.length (l.length + b.n)).1
    rw [hb.n] at *
    omega
  rw [arrayRunLazyXorBuf, arrayRunLazyXor]
  have hs := (acc_start _ hcap).1
  generalize (runGrow fresh dst (l.length + b.n) false).mem = mem at *
  rw [hb.n]
  obtain ⟨s', e, i⟩ := mergeBuf_spec (fun s acc m => Acc s acc m (xs.length + l.length) (mem.drop (xs.length + l.length)))
    (key1 := (·.1)) (key2 := id) (get1 := fun _ i => rdRun b.mem i) (get2 := fun _ j => rdVal l j)
    (app1 := fun s r => smartAppendBuf s r.1 r.2) (app2 := fun s v => smartAppendBuf s v 0)
    (f1 := fun a r => smartAppend a r.1 r.2) (f2 := fun a v => smartAppend a v 0)
    (fun s c m r hi => smartAppendBuf_spec hi r.1 r.2) (fun s c m r hi => smartAppendBuf_spec hi r 0)
    (fun s c m i r _ hr => hb.get hr) (fun s c m i r _ hr => rdVal_get hr)
    (xs.length + l.length + 1) 0 0 _ [] (by omega) hs
  rw [e, arrayRunLazyXorLoop_merge]
  exact ⟨_, rfl, i.holds⟩

end CRoaring
