import Verif.Lemmas.Alloc6

set_option linter.unusedSimpArgs false
set_option linter.unusedVariables false

/-! Histories of calls when requests for memory may be refused. -/

namespace CRoaring

variable {F : Nat → Option MBlk} {m m1 m2 m' base : Mem} {own own' : List Nat} {ok : Nat → Bool}

theorem holdsB_live {p : Nat} {b : Bitmap} {cow : Bool} {alloc : Nat} {buf : Option Nat} {rs : List CRec}
    (h : HoldsB m p b cow alloc buf rs) : ∀ x ∈ bmBlocks p buf rs, m.live x ≠ none := by
  intro x hx
  rw [bmBlocks, List.mem_cons, List.mem_append] at hx
  rcases hx with rfl | hx | hx
  · rw [h.hdr]; simp
  · obtain ⟨s, h1, _⟩ := h.slots x (by simpa using hx)
    rw [h1]; simp
  · obtain ⟨r, hr, hx⟩ := List.mem_flatMap.1 hx
    have hrec : ∀ {rs : List CRec} {cs : List Container}, List.Forall₂ (HoldsC m) rs cs → ∀ r ∈ rs, ∃ c, HoldsC m r c := by
      intro rs cs hf
      induction hf with
      | nil => simp
      | cons h1 _ ih =>
        intro r hr
        rcases List.mem_cons.1 hr with rfl | hr
        · exact ⟨_, h1⟩
        · exact ih r hr
    obtain ⟨c, hc⟩ := hrec h.conts r hr
    exact holdsC_live hc x hx

/-- New blocks beside blocks in use. -/
theorem Owns.lift {new : List Nat} (h : Owns F m own) (hl : ∀ x ∈ own, m.live x ≠ none) (h' : Owns m.live m' new) : Owns F m' (new ++ own) := by
  refine ⟨fun x hx => ?_, fun x hx => ?_, h'.bnd, ?_⟩
  · rw [List.mem_append] at hx
    rw [h'.frame x (fun w => hx (Or.inl w)), h.frame x (fun w => hx (Or.inr w))]
  · rcases List.mem_append.1 hx with hx | hx
    · refine ⟨?_, (h'.priv x hx).2⟩
      have h1 := (h'.priv x hx).1
      by_cases ho : x ∈ own
      · exact absurd h1 (hl x ho)
      · rw [← h.frame x ho, h1]
    · refine ⟨(h.priv x hx).1, ?_⟩
      by_contra hn
      have h1 := h'.bnd x (by omega)
      rw [h'.keep (hl x hx)] at h1
      exact hl x hx h1
  · rw [List.nodup_append]
    refine ⟨h'.nodup, h.nodup, fun a ha b hb e => ?_⟩
    exact hl b hb (e ▸ (h'.priv a ha).1)

/-- A bitmap in memory. -/
structure BRec where
  p : Nat
  alloc : Nat
  buf : Option Nat
  rs : List CRec

def BRec.blocks (t : BRec) : List Nat := bmBlocks t.p t.buf t.rs

def HoldsT (m : Mem) (t : BRec) (b : Bitmap) : Prop := HoldsB m t.p b false t.alloc t.buf t.rs ∧ b.length ≤ 65536

/-- The bitmaps of a history. -/
structure AllB (F : Nat → Option MBlk) (m : Mem) (ts : List BRec) (bs : List Bitmap) : Prop where
  all : List.Forall₂ (HoldsT m) ts bs
  inv : Owns F m (ts.flatMap BRec.blocks)

theorem holdsT_same {t : BRec} {b : Bitmap} (h : HoldsT m t b) (hs : Same t.blocks m m') : HoldsT m' t b := ⟨holdsB_same h.1 hs, h.2⟩

theorem allT_same {ts : List BRec} {bs : List Bitmap} (h : List.Forall₂ (HoldsT m) ts bs) (hs : Same (ts.flatMap BRec.blocks) m m') :
    List.Forall₂ (HoldsT m') ts bs :=
  forall₂_mono h (fun t ht b hb => holdsT_same hb (hs.mono (fun x hx => List.mem_flatMap.2 ⟨t, ht, hx⟩)))

theorem allT_live {ts : List BRec} {bs : List Bitmap} (h : List.Forall₂ (HoldsT m) ts bs) : ∀ x ∈ ts.flatMap BRec.blocks, m.live x ≠ none := by
  induction h with
  | nil => simp
  | cons h1 _ ih =>
    intro x hx
    rw [List.flatMap_cons, List.mem_append] at hx
    rcases hx with hx | hx
    · exact holdsB_live h1.1 x hx
    · exact ih x hx

theorem forall₂_get {α β : Type} {R : α → β → Prop} {l : List α} {l' : List β} (h : List.Forall₂ R l l') :
    ∀ {i : Nat} {a : α}, l[i]? = some a → ∃ b, l'[i]? = some b ∧ R a b := by
  induction h with
  | nil => intro i a hi; simp at hi
  | cons h1 _ ih =>
    intro i a hi
    cases i with
    | zero => simp at hi; subst hi; exact ⟨_, rfl, h1⟩
    | succ i => simp at hi; obtain ⟨b, h2, h3⟩ := ih hi; exact ⟨b, by simpa using h2, h3⟩

theorem forall₂_erase {α β : Type} {R : α → β → Prop} {l : List α} {l' : List β} (h : List.Forall₂ R l l') :
    ∀ i, List.Forall₂ R (l.eraseIdx i) (l'.eraseIdx i) := by
  induction h with
  | nil => intro i; simp
  | cons h1 h2 ih =>
    intro i
    cases i with
    | zero => simpa using h2
    | succ i => simpa using ⟨h1, ih i⟩

theorem forall₂_set {α β : Type} {R : α → β → Prop} {l : List α} {l' : List β} (h : List.Forall₂ R l l') :
    ∀ {i : Nat} {a : α} {b : β}, l'[i]? = some b → R a b → List.Forall₂ R (l.set i a) l' := by
  induction h with
  | nil => intro i a b h; simp at h
  | cons h1 h2 ih =>
    intro i a b h hr
    cases i with
    | zero => simp at h; subst h; simpa using ⟨hr, h2⟩
    | succ i => simp at h; simpa using ⟨h1, ih h hr⟩

theorem map_eraseIdx {α β : Type} (f : α → β) : ∀ (l : List α) (i : Nat), (l.map f).eraseIdx i = (l.eraseIdx i).map f
  | [], i => by simp
  | x :: l, 0 => by simp
  | x :: l, i + 1 => by simp [map_eraseIdx f l i]

theorem erase_perm {α β : Type} (f : α → List β) : ∀ {l : List α} {i : Nat} {a : α}, l[i]? = some a →
    (l.flatMap f).Perm (f a ++ (l.eraseIdx i).flatMap f)
  | [], i, a, h => by simp at h
  | x :: l, 0, a, h => by simp at h; subst h; simp
  | x :: l, i + 1, a, h => by
    simp at h
    have := (erase_perm f h).append_left (f x)
    simp only [List.flatMap_cons, List.eraseIdx_cons_succ]
    exact this.trans (List.perm_append_comm_assoc _ _ _)

theorem set_perm {α β : Type} (f : α → List β) : ∀ {l : List α} {i : Nat} {a c : α}, l[i]? = some a →
    ((l.set i c).flatMap f).Perm (f c ++ (l.eraseIdx i).flatMap f)
  | [], i, a, c, h => by simp at h
  | x :: l, 0, a, c, h => by simp
  | x :: l, i + 1, a, c, h => by
    simp at h
    have := (set_perm f (c := c) h).append_left (f x)
    simp only [List.set_cons_succ, List.flatMap_cons, List.eraseIdx_cons_succ]
    exact this.trans (List.perm_append_comm_assoc _ _ _)

/-- A new bitmap beside the others. -/
theorem AllB.add {ts : List BRec} {bs : List Bitmap} (h : AllB F m ts bs) {t : BRec} {b : Bitmap} (hi : Owns m.live m' t.blocks) (hb : HoldsT m' t b) :
    AllB F m' (ts ++ [t]) (bs ++ [b]) := by
  have hl := allT_live h.all
  refine ⟨forall₂_append (allT_same h.all (fun x hx => hi.keep (hl x hx))) (.cons hb .nil), ?_⟩
  refine (h.inv.lift hl hi).perm ?_
  rw [List.flatMap_append]
  simpa using List.perm_append_comm

/-- Nothing happened to the bitmaps. -/
theorem AllB.stay {ts : List BRec} {bs : List Bitmap} (h : AllB F m ts bs) (hi : Owns m.live m' []) : AllB F m' ts bs := by
  have hl := allT_live h.all
  exact ⟨allT_same h.all (fun x hx => hi.keep (hl x hx)), by simpa using h.inv.lift hl hi⟩

/-- One call. -/
theorem run_step {ts : List BRec} {bs : List Bitmap} (h : AllB F m ts bs) (ok : Nat → Bool) (c : ACall)
    (hc : (∀ n, ok n = true) ∨ ∀ bytes, c = .read bytes → NoRunCookie bytes) :
    ∃ m' ts' bs', c.run ok (ts.map BRec.p, m) = some (ts'.map BRec.p, m') ∧ AllB F m' ts' bs' ∧
      (bs' = c.effect bs ∨ (Refused ok m m' ∧ bs' = bs ∧ ∀ i, c ≠ .free i)) := by
  have hlen := h.all.length_eq
  have i0 := Owns.init h.inv.bnd
  -- a call that gives a new bitmap or nothing
  have make : ∀ {x : Option (Option Nat × Mem)} {b : Bitmap}, b.length ≤ 65536 → MadeB m.live ok m [] b false x →
      ∃ m' ts' bs', x.map (fun x => (ts.map BRec.p ++ x.1.toList, x.2)) = some (ts'.map BRec.p, m') ∧ AllB F m' ts' bs' ∧
      (bs' = bs ++ [b] ∨ (Refused ok m m' ∧ bs' = bs)) := by
    intro x b hb hx
    rcases hx with ⟨m1, e1, i1, _, r1⟩ | ⟨p, alloc, buf, rs, m1, e1, i1, _, g1, h1⟩
    · exact ⟨m1, ts, bs, by rw [e1]; simp, h.stay i1, Or.inr ⟨r1, rfl⟩⟩
    · exact ⟨m1, ts ++ [⟨p, alloc, buf, rs⟩], bs ++ [b], by rw [e1]; simp, h.add (t := ⟨p, alloc, buf, rs⟩) (by simpa [BRec.blocks] using i1) ⟨h1, hb⟩, Or.inl rfl⟩
  have nothing : ∃ m' ts' bs', some (ts.map BRec.p, m) = some (ts'.map BRec.p, m') ∧ AllB F m' ts' bs' ∧ bs' = bs := ⟨m, ts, bs, rfl, h, rfl⟩
  have get : ∀ {i : Nat} {p : Nat}, (ts.map BRec.p)[i]? = some p → ∃ t b, ts[i]? = some t ∧ t.p = p ∧ bs[i]? = some b ∧ HoldsT m t b := by
    intro i p hp
    rw [List.getElem?_map] at hp
    cases ht : ts[i]? with
    | none => rw [ht] at hp; simp at hp
    | some t =>
      rw [ht] at hp
      obtain ⟨b, hb, hh⟩ := forall₂_get h.all ht
      exact ⟨t, b, rfl, by simpa using hp, hb, hh⟩
  have out : ∀ {i : Nat}, (ts.map BRec.p)[i]? = none → bs[i]? = none := by
    intro i hi
    rw [List.getElem?_eq_none_iff] at hi ⊢
    simp at hi
    omega
  cases c with
  | create cap =>
    obtain ⟨m1, ts1, bs1, a1, a2, a3⟩ := make (by simp) (createA_spec cap i0 ok)
    refine ⟨m1, ts1, bs1, a1, a2, ?_⟩
    rcases a3 with a3 | ⟨a3, a4⟩
    · exact Or.inl a3
    · exact Or.inr ⟨a3, a4, by simp⟩
  | copy i =>
    simp only [ACall.run]
    cases hp : (ts.map BRec.p)[i]? with
    | none => exact ⟨m, ts, bs, rfl, h, Or.inl (by simp [ACall.effect, out hp])⟩
    | some p =>
      obtain ⟨t, b, ht, rfl, hb, hh⟩ := get hp
      obtain ⟨m1, ts1, bs1, a1, a2, a3⟩ := make hh.2 (copyA_spec hh.1 hh.2 ok i0)
      refine ⟨m1, ts1, bs1, a1, a2, ?_⟩
      rcases a3 with a3 | ⟨a3, a4⟩
      · exact Or.inl (by rw [a3]; simp [ACall.effect, hb])
      · exact Or.inr ⟨a3, a4, by simp⟩
  | read bytes =>
    simp only [ACall.run]
    rcases deserA_spec (buf := bytes) (base := 0) (maxbytes := bytes.length) (by omega) ok i0 with
      ⟨e1, ⟨c, c1, c2⟩, j, _, j2⟩ | ⟨m1, e1, i1, _, r1⟩ | ⟨m1, p, alloc, buf', rs, b, e1, e2, h1, i1, _, g1, ha⟩
    · exfalso
      rcases hc with hc | hc
      · rw [hc j] at j2; cases j2
      · exact hc bytes rfl c c1 c2
    · refine ⟨m1, ts, bs, by rw [e1]; simp, h.stay i1, ?_⟩
      rcases r1 with r1 | ⟨_, r1⟩
      · exact Or.inr ⟨r1, rfl, by simp⟩
      · exact Or.inl (by simp [ACall.effect, r1])
    · refine ⟨m1, ts ++ [⟨p, alloc, buf', rs⟩], bs ++ [b], by rw [e1]; simp, h.add (t := ⟨p, alloc, buf', rs⟩) (by simpa [BRec.blocks] using i1) ⟨h1, ?_⟩, Or.inl (by simp [ACall.effect, e2])⟩
      have := h1.room
      omega
  | shrink i =>
    simp only [ACall.run]
    cases hp : (ts.map BRec.p)[i]? with
    | none => exact ⟨m, ts, bs, rfl, h, Or.inl rfl⟩
    | some p =>
      obtain ⟨t, b, ht, rfl, hb, hh⟩ := get hp
      have hperm := erase_perm BRec.blocks ht
      rcases raShrinkA_spec ok hh.1 (own := (ts.eraseIdx i).flatMap BRec.blocks) (h.inv.perm hperm) with
        ⟨m1, e1, l1, i1, r1⟩ | ⟨m1, buf', e1, h1, s1, g1, i1⟩
      · refine ⟨m1, ts, bs, by simp only [e1]; rfl, ⟨allT_same h.all (fun x _ => by rw [l1]), i1.perm hperm.symm⟩, Or.inl rfl⟩
      · have e3 : (ts.set i ⟨t.p, b.length, buf', t.rs⟩).map BRec.p = ts.map BRec.p := by
          rw [List.map_set]
          simp only
          apply List.ext_getElem?
          intro j
          rw [List.getElem?_set]
          split
          · next e => subst e; simp only [List.length_map]; split
                      · rw [List.getElem?_map, ht]; rfl
                      · next w => rw [List.getElem?_eq_none (by simpa using w)]
          · rfl
        refine ⟨m1, ts.set i ⟨t.p, b.length, buf', t.rs⟩, bs, by simp only [e1, e3]; rfl, ⟨?_, ?_⟩, Or.inl rfl⟩
        · -- all but the one at `i` are unchanged
          have key : ∀ {ts : List BRec} {bs : List Bitmap}, List.Forall₂ (HoldsT m) ts bs → ∀ {i : Nat} {t0 : BRec} {b : Bitmap}, ts[i]? = some t0 → bs[i]? = some b →
              ∀ t', HoldsT m1 t' b → Same ((ts.eraseIdx i).flatMap BRec.blocks) m m1 → List.Forall₂ (HoldsT m1) (ts.set i t') bs := by
            intro ts bs hf
            induction hf with
            | nil => intro i t0 b hi; simp at hi
            | cons q1 q2 ih =>
              intro i t0 b ht hb t' ht' hs
              cases i with
              | zero =>
                simp at ht hb
                subst ht hb
                exact .cons ht' (allT_same q2 (by simpa using hs))
              | succ i =>
                simp at ht hb
                simp only [List.eraseIdx_cons_succ, List.flatMap_cons] at hs
                exact .cons (holdsT_same q1 (hs.mono (fun x hx => List.mem_append.2 (Or.inl hx)))) (ih ht hb t' ht' (hs.mono (fun x hx => List.mem_append.2 (Or.inr hx))))
          exact key h.all ht hb _ ⟨h1, hh.2⟩ s1
        · exact i1.perm (set_perm BRec.blocks (c := ⟨t.p, b.length, buf', t.rs⟩) ht).symm
  | free i =>
    simp only [ACall.run]
    cases hp : (ts.map BRec.p)[i]? with
    | none =>
      refine ⟨m, ts, bs, rfl, h, Or.inl ?_⟩
      have := out hp
      rw [List.getElem?_eq_none_iff] at this
      simp only [ACall.effect]
      rw [List.eraseIdx_of_length_le this]
    | some p =>
      obtain ⟨t, b, ht, rfl, hb, hh⟩ := get hp
      obtain ⟨m1, e1, i1, s1, c1⟩ := freeBitmapA_spec hh.1 (own := (ts.eraseIdx i).flatMap BRec.blocks) (h.inv.perm (erase_perm BRec.blocks ht))
      refine ⟨m1, ts.eraseIdx i, bs.eraseIdx i, ?_, ⟨allT_same (forall₂_erase h.all i) s1, i1⟩, Or.inl rfl⟩
      simp only [e1, Option.map_some]
      rw [map_eraseIdx]

/-- Releasing all bitmaps leaves the memory there was. -/
theorem freeAll_spec : ∀ {ts : List BRec} {bs : List Bitmap} {m : Mem}, AllB F m ts bs → ∃ m', freeAll (ts.map BRec.p) m = some m' ∧ m'.live = F
  | [], bs, m, h => ⟨m, rfl, by simpa using h.inv.nil⟩
  | t :: ts, bs, m, h => by
    cases hb : h.all with
    | cons q1 q2 =>
      rename_i b bs'
      obtain ⟨m1, e1, i1, s1, c1⟩ := freeBitmapA_spec q1.1 (own := ts.flatMap BRec.blocks) (by simpa [BRec.blocks] using h.inv)
      obtain ⟨m2, e2, e3⟩ := freeAll_spec (m := m1) ⟨allT_same q2 s1, i1⟩
      exact ⟨m2, by simp [freeAll, e1, e2], e3⟩

/-- All calls. -/
theorem runCalls_spec (ok : Nat → Bool) : ∀ (cs : List ACall) {m : Mem} {ts : List BRec} {bs : List Bitmap}, AllB F m ts bs →
    ((∀ n, ok n = true) ∨ ∀ bytes, .read bytes ∈ cs → NoRunCookie bytes) →
    ∃ m' ts' bs', runCalls ok cs (ts.map BRec.p, m) = some (ts'.map BRec.p, m') ∧ AllB F m' ts' bs' ∧ Did cs bs bs' ∧
      ((∀ n, ok n = true) → bs' = cs.foldl (fun bs c => c.effect bs) bs)
  | [], m, ts, bs, h, _ => ⟨m, ts, bs, rfl, h, .nil bs, fun _ => rfl⟩
  | c :: cs, m, ts, bs, h, hc => by
    obtain ⟨m1, ts1, bs1, a1, a2, a3⟩ := run_step h ok c (hc.imp id (fun w bytes e => w bytes (by simp [e])))
    obtain ⟨m2, ts2, bs2, b1, b2, b3, b4⟩ := runCalls_spec ok cs a2 (hc.imp id (fun w bytes e => w bytes (by simp [e])))
    refine ⟨m2, ts2, bs2, by simp [runCalls, a1, b1], b2, ?_, ?_⟩
    · rcases a3 with a3 | ⟨_, a3, a4⟩
      · rw [a3] at b3
        exact .done b3
      · rw [a3] at b3
        exact .refused a4 b3
    · intro hok
      rw [b4 hok, List.foldl_cons]
      rcases a3 with a3 | ⟨⟨j, _, _, j3⟩, _⟩
      · rw [a3]
      · rw [hok j] at j3; cases j3

end CRoaring
