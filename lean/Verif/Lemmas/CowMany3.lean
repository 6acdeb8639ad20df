import Verif.Lemmas.CowMany2

set_option linter.unusedSimpArgs false
set_option linter.unusedVariables false

/-! The operations on many bitmaps of a pool. -/

namespace CRoaring
open Spec

variable {g : Bool}

theorem PRel.pget {h : Heap} {p : List (Option HBitmap)} {sp : History.Pool} (a : PRel g h p sp) {i : Nat} {S : NSet}
    (hs : sp[i]? = some (some S)) : ∃ x, poolGet p i = some x ∧ p[i]? = some (some x) ∧ Good g h x S :=
  PRel.get (w := ⟨h, p⟩) a hs

/-- What a call that makes a new bitmap from the pool guarantees, with `G` about the new bitmap. -/
def NewOk (g : Bool) (h : Heap) (sp : History.Pool) (L : List Ref)
    (r : Option (HBitmap × List (Option HBitmap) × Heap)) (G : Heap → HBitmap → Prop) : Prop :=
  ∃ a p' h', r = some (a, p', h') ∧ HInv g h' (refs a.slots ++ (prefs p' ++ L)) ∧ PRel g h' p' sp ∧ G h' a ∧
    Keep h h' L

theorem poolCopy_ok {h : Heap} {p : List (Option HBitmap)} {sp : History.Pool} {L : List Ref}
    (iv : HInv g h (prefs p ++ L)) (a : PRel g h p sp) {i : Nat} {S : NSet} (hS : sp[i]? = some (some S)) :
    NewOk g h sp L (poolCopy h p i) (fun h' n => Good g h' n S) := by
  obtain ⟨x, e, ep, b⟩ := a.pget hS
  have hi := lt_of_get ep
  obtain ⟨n, x', h', e2, i2, b1, b2, q⟩ := hCopy_ok h x (prefs (p.set i none) ++ L) S
    (iv.perm (fun r => by simp only [List.count_append]; rw [prefs_take ep r]; omega)) b
  refine ⟨n, p.set i (some x'), h', by simp [poolCopy, e, e2], i2.perm (fun r => ?_), ?_, b1, q.mono (by sub_tac)⟩
  · simp only [List.count_append]; rw [prefs_put hi]; omega
  · have := ((a.clear i).keep (q.mono (by sub_tac))).set i b2
    rwa [List.set_set, List.set_set, set_same hS] at this

theorem poolUpd_ok {u : Heap → HBitmap → HBitmap → Option (HBitmap × HBitmap × Heap)} {f : NSet → NSet → NSet}
    (ok : BLOk g u f) {h : Heap} {p : List (Option HBitmap)} {sp : History.Pool} {L : List Ref} {z : HBitmap} {T : NSet}
    (iv : HInv g h (refs z.slots ++ (prefs p ++ L))) (c : LGood h z T) (a : PRel g h p sp) {i : Nat} {S : NSet}
    (hS : sp[i]? = some (some S)) :
    NewOk g h sp L (poolUpd u h p z i) (fun h' n => LGood h' n (f T S) ∧ (n.cow = z.cow ∨ n.cow = g)) := by
  obtain ⟨x, e, ep, b⟩ := a.pget hS
  have hi := lt_of_get ep
  obtain ⟨n, x', h', e2, i2, hf, b1, b2, q⟩ := ok h z x (prefs (p.set i none) ++ L) T S
    (iv.perm (fun r => by simp only [List.count_append]; rw [prefs_take ep r]; omega)) c b
  refine ⟨n, p.set i (some x'), h', by simp [poolUpd, e, e2], i2.perm (fun r => ?_), ?_, ⟨b1, hf⟩, q.mono (by sub_tac)⟩
  · simp only [List.count_append]; rw [prefs_put hi]; omega
  · have := ((a.clear i).keep (q.mono (by sub_tac))).set i b2
    rwa [List.set_set, List.set_set, set_same hS] at this

theorem poolNew2_ok {u : Heap → HBitmap → HBitmap → Option (HBitmap × HBitmap × HBitmap × Heap)}
    {f : NSet → NSet → NSet} (ok : MLOk g u f) (ok2 : SLOk g u f) {h : Heap} {p : List (Option HBitmap)}
    {sp : History.Pool} {L : List Ref} (iv : HInv g h (prefs p ++ L)) (a : PRel g h p sp) {i j : Nat} {S T : NSet}
    (hS : sp[i]? = some (some S)) (hT : sp[j]? = some (some T)) :
    NewOk g h sp L (poolNew2 u h p i j) (fun h' n => LGood h' n (f S T) ∧ n.cow = g) := by
  obtain ⟨x, e, ep, b⟩ := a.pget hS
  obtain ⟨y, ey, epy, c⟩ := a.pget hT
  have hi := lt_of_get ep
  have hj := lt_of_get epy
  by_cases hij : i = j
  · subst hij
    obtain rfl : x = y := by rw [e] at ey; exact Option.some.inj ey
    obtain rfl : S = T := by rw [hS] at hT; exact Option.some.inj (Option.some.inj hT)
    obtain ⟨n, x', y', h', e2, i2, hf, b1, b2, q⟩ := ok2 h x (prefs (p.set i none) ++ L) S
      (iv.perm (fun r => by simp only [List.count_append]; rw [prefs_take ep r]; omega)) b
    refine ⟨n, (p.set i (some y')).set i (some x'), h', by simp [poolNew2, e, e2], i2.perm (fun r => ?_), ?_, ⟨b1, hf⟩,
      q.mono (by sub_tac)⟩
    · simp only [List.count_append, List.set_set]; rw [prefs_put hi]; omega
    · have := ((a.clear i).keep (q.mono (by sub_tac))).set i b2
      rw [List.set_set, List.set_set, set_same hS] at this
      rw [List.set_set]
      exact this
  · obtain ⟨n, x', y', h', e2, i2, hf, b0, b1, b2, q⟩ := ok h x y (prefs ((p.set i none).set j none) ++ L) S T
      (iv.perm (fun r => by simp only [List.count_append]; rw [two_take hij ep epy r]; omega)) b c
    refine ⟨n, (p.set j (some y')).set i (some x'), h', by simp [poolNew2, e, ey, e2], i2.perm (fun r => ?_), ?_, ⟨b0, hf⟩,
      q.mono (by sub_tac)⟩
    · simp only [List.count_append]; rw [two_put hij hi hj]; omega
    · have := ((((a.clear i).clear j).keep (q.mono (by sub_tac))).set j b2).set i b1
      rwa [two_set _ _ _ _ _ hij, two_set _ _ _ _ _ hij, set_same hT, set_same hS] at this

/-! ### Sets of several bitmaps -/

theorem gets_cons {sp : History.Pool} {i : Nat} {is : List Nat} {l : List NSet}
    (hs : History.gets sp (i :: is) = some l) :
    ∃ S t, sp[i]? = some (some S) ∧ History.gets sp is = some t ∧ l = S :: t := by
  simp only [History.gets, Option.bind_eq_bind, Option.bind_eq_some_iff, Option.some.injEq] at hs
  obtain ⟨S, hS, t, ht, rfl⟩ := hs
  exact ⟨S, t, get_some hS, ht, rfl⟩

theorem gets_nil {sp : History.Pool} {l : List NSet} (hs : History.gets sp [] = some l) : l = [] := by
  simpa [History.gets] using hs.symm

theorem unionAll_cons (S : NSet) (l : List NSet) :
    History.unionAll (S :: l) = Spec.union S (History.unionAll l) := by
  funext v; simp [History.unionAll, Spec.union]

theorem unionAll_two (S T : NSet) (l : List NSet) :
    History.unionAll (Spec.union S T :: l) = History.unionAll (S :: T :: l) := by
  funext v; simp [History.unionAll, Spec.union, Bool.or_assoc]

theorem unionAll_single (S : NSet) : History.unionAll [S] = S := by
  funext v; simp [History.unionAll]

theorem symmAll_single (S : NSet) : History.symmAll [S] = S := by
  funext v
  cases h : S v <;> simp [History.symmAll, h]

theorem symmAll_two (S T : NSet) (l : List NSet) :
    History.symmAll (Spec.symm S T :: l) = History.symmAll (S :: T :: l) := by
  funext v
  cases h : S v <;> cases h2 : T v <;> simp [History.symmAll, Spec.symm, h, h2]
  omega

/-! ### `or_many` and `xor_many` -/

theorem hOrManyLoop_ok (o : Nat → Bool) (caps : Nat → Nat) {sp : History.Pool} {L : List Ref} : ∀ (is : List Nat)
    (n : Nat) (h : Heap) (p : List (Option HBitmap)) (z : HBitmap) (T : NSet) (l : List NSet),
    HInv g h (refs z.slots ++ (prefs p ++ L)) → LGood h z T → z.cow = g → PRel g h p sp →
    History.gets sp is = some l →
    NewOk g h sp L (hOrManyLoop o caps n h p z is) (fun h' a => LGood h' a (History.unionAll (T :: l)) ∧ a.cow = g) := by
  intro is
  induction is with
  | nil =>
    intro n h p z T l iv c hf a hs
    obtain rfl := gets_nil hs
    exact ⟨z, p, h, rfl, iv, a, ⟨by rw [unionAll_single]; exact c, hf⟩, Keep.refl _ _⟩
  | cons i is ih =>
    intro n h p z T l iv c hf a hs
    obtain ⟨S, t, hS, ht, rfl⟩ := gets_cons hs
    obtain ⟨z1, p1, h1, e1, i1, a1, ⟨c1, f1⟩, q1⟩ := poolUpd_ok
      (hLazyOrInplace_ok (round o n) true (round caps n)) iv c a hS
    obtain ⟨z2, p2, h2, e2, i2, a2, c2, q2⟩ := ih (n + 1) h1 p1 z1 _ t i1 c1
      (by rcases f1 with f1 | f1 <;> rw [f1]; exact hf) a1 ht
    refine ⟨z2, p2, h2, by simp [hOrManyLoop, e1, e2], i2, a2, ?_, q1.trans q2 (List.Subset.refl _) (List.Subset.refl _)⟩
    rwa [unionAll_two] at c2

theorem hXorManyLoop_ok (o : Nat → Bool) {sp : History.Pool} {L : List Ref} : ∀ (is : List Nat)
    (n : Nat) (h : Heap) (p : List (Option HBitmap)) (z : HBitmap) (T : NSet) (l : List NSet),
    HInv g h (refs z.slots ++ (prefs p ++ L)) → LGood h z T → z.cow = g → PRel g h p sp →
    History.gets sp is = some l →
    NewOk g h sp L (hXorManyLoop o n h p z is) (fun h' a => LGood h' a (History.symmAll (T :: l)) ∧ a.cow = g) := by
  intro is
  induction is with
  | nil =>
    intro n h p z T l iv c hf a hs
    obtain rfl := gets_nil hs
    exact ⟨z, p, h, rfl, iv, a, ⟨by rw [symmAll_single]; exact c, hf⟩, Keep.refl _ _⟩
  | cons i is ih =>
    intro n h p z T l iv c hf a hs
    obtain ⟨S, t, hS, ht, rfl⟩ := gets_cons hs
    obtain ⟨z1, p1, h1, e1, i1, a1, ⟨c1, f1⟩, q1⟩ := poolUpd_ok (hLazyXorInplace_ok (round o n)) iv c a hS
    obtain ⟨z2, p2, h2, e2, i2, a2, c2, q2⟩ := ih (n + 1) h1 p1 z1 _ t i1 c1
      (by rcases f1 with f1 | f1 <;> rw [f1]; exact hf) a1 ht
    refine ⟨z2, p2, h2, by simp [hXorManyLoop, e1, e2], i2, a2, ?_, q1.trans q2 (List.Subset.refl _) (List.Subset.refl _)⟩
    rwa [symmAll_two] at c2

theorem repair_new (o : Nat → Bool) {h : Heap} {p : List (Option HBitmap)} {sp : History.Pool} {L : List Ref}
    {z : HBitmap} {T : NSet} (iv : HInv g h (refs z.slots ++ (prefs p ++ L))) (c : LGood h z T) (a : PRel g h p sp) :
    ∃ z' h', hRepair o h z = some (z', h') ∧ HInv g h' (refs z'.slots ++ (prefs p ++ L)) ∧ PRel g h' p sp ∧
      (Good z.cow h' z' T ∧ ∀ s ∈ z'.slots, s.2.sh = false) ∧ Keep h h' L := by
  obtain ⟨z', h', e, i', c', hs, q⟩ := hRepair_ok o iv c
  exact ⟨z', h', e, i', a.keep (q.mono (by sub_tac)), ⟨c', hs⟩, q.mono (by sub_tac)⟩

theorem hOrMany_ok (o : Nat → Bool) (caps : Nat → Nat) {h : Heap} {p : List (Option HBitmap)} {sp : History.Pool}
    {L : List Ref} (iv : HInv g h (prefs p ++ L)) (a : PRel g h p sp) {is : List Nat} {l : List NSet}
    (hs : History.gets sp is = some l) (hg : g = false ∨ is ≠ []) :
    NewOk g h sp L (hOrMany o caps h p is) (fun h' n => Good g h' n (History.unionAll l)) := by
  match is, hs, hg with
  | [], hs, hg =>
    obtain rfl := gets_nil hs
    have hg : g = false := by simpa using hg
    subst hg
    exact ⟨hCreate false, p, h, rfl, by simpa [hCreate] using iv, a, ⟨rfl, trivial, fun _ => rfl⟩, Keep.refl _ _⟩
  | [i], hs, hg =>
    obtain ⟨S, t, hS, ht, rfl⟩ := gets_cons hs
    obtain rfl := gets_nil ht
    rw [unionAll_single]
    exact poolCopy_ok iv a hS
  | i :: j :: is, hs, hg =>
    obtain ⟨S, t0, hS, ht0, rfl⟩ := gets_cons hs
    obtain ⟨T, t, hT, ht, rfl⟩ := gets_cons ht0
    obtain ⟨z1, p1, h1, e1, i1, a1, ⟨c1, f1⟩, q1⟩ := poolNew2_ok (hLazyOr_ok (round o 0) true)
      (hLazyOr_self (round o 0) true) iv a hS hT
    obtain ⟨z2, p2, h2, e2, i2, a2, ⟨c2, f2⟩, q2⟩ := hOrManyLoop_ok o caps is 2 h1 p1 z1 _ t i1 c1 f1 a1 ht
    obtain ⟨z3, h3, e3, i3, a3, ⟨c3, _⟩, q3⟩ := repair_new (round o 1) i2 c2 a2
    rw [f2, unionAll_two] at c3
    exact ⟨z3, p2, h3, by simp [hOrMany, e1, e2, e3], i3, a3, c3,
      (q1.trans q2 (List.Subset.refl _) (List.Subset.refl _)).trans q3 (List.Subset.refl _) (List.Subset.refl _)⟩

theorem hXorMany_ok (o : Nat → Bool) {h : Heap} {p : List (Option HBitmap)} {sp : History.Pool}
    {L : List Ref} (iv : HInv g h (prefs p ++ L)) (a : PRel g h p sp) {is : List Nat} {l : List NSet}
    (hs : History.gets sp is = some l) (hg : g = false ∨ is ≠ []) :
    NewOk g h sp L (hXorMany o h p is) (fun h' n => Good g h' n (History.symmAll l)) := by
  match is, hs, hg with
  | [], hs, hg =>
    obtain rfl := gets_nil hs
    have hg : g = false := by simpa using hg
    subst hg
    exact ⟨hCreate false, p, h, rfl, by simpa [hCreate] using iv, a, ⟨rfl, trivial, fun _ => rfl⟩, Keep.refl _ _⟩
  | [i], hs, hg =>
    obtain ⟨S, t, hS, ht, rfl⟩ := gets_cons hs
    obtain rfl := gets_nil ht
    rw [symmAll_single]
    exact poolCopy_ok iv a hS
  | i :: j :: is, hs, hg =>
    obtain ⟨S, t0, hS, ht0, rfl⟩ := gets_cons hs
    obtain ⟨T, t, hT, ht, rfl⟩ := gets_cons ht0
    obtain ⟨z1, p1, h1, e1, i1, a1, ⟨c1, f1⟩, q1⟩ := poolNew2_ok hLazyXor_ok hLazyXor_self iv a hS hT
    obtain ⟨z2, p2, h2, e2, i2, a2, ⟨c2, f2⟩, q2⟩ := hXorManyLoop_ok o is 2 h1 p1 z1 _ t i1 c1 f1 a1 ht
    obtain ⟨z3, h3, e3, i3, a3, ⟨c3, _⟩, q3⟩ := repair_new (round o 1) i2 c2 a2
    rw [f2, symmAll_two] at c3
    exact ⟨z3, p2, h3, by simp [hXorMany, e1, e2, e3], i3, a3, c3,
      (q1.trans q2 (List.Subset.refl _) (List.Subset.refl _)).trans q3 (List.Subset.refl _) (List.Subset.refl _)⟩

/-! ### `or_many_heap` -/

theorem readSlots_ok {h : Heap} : ∀ {s : List Slot} {l : List Ref}, HInv g h l → refs s ⊆ l →
    readSlots h s = some (vw h s) := by
  intro s
  induction s with
  | nil => intro l i hl; rfl
  | cons p t ih =>
    obtain ⟨k, r⟩ := p
    intro l i hl
    obtain ⟨m1, m2⟩ := refs_sub_cons hl
    simp [readSlots, i.live m1, ih i m2, vw_cons]

theorem hSize_ok {h : Heap} {x : HBitmap} {l : List Ref} (i : HInv g h l) (hl : refs x.slots ⊆ l) :
    hSize h x = some (rbPortableSize (vw h x.slots)) := by
  simp [hSize, readSlots_ok i hl]

/-- The pointers of an element of the queue that are not pointers of the pool. -/
def qref (e : PQElemOf QRef) : List Ref :=
  match e.bitmap with
  | .user _ => []
  | .temp x => refs x.slots

/-- The set of an element of the queue. -/
def qset (h : Heap) (sp : History.Pool) (e : PQElemOf QRef) : NSet :=
  match e.bitmap with
  | .user i => (History.get sp i).getD Spec.empty
  | .temp x => fun v => bhas (vw h x.slots) v

/-- What holds for the elements of the queue. -/
def QOk (g : Bool) (h : Heap) (sp : History.Pool) (e : PQElemOf QRef) : Prop :=
  match e.bitmap with
  | .user i => e.isTemp = false ∧ ∃ S, sp[i]? = some (some S)
  | .temp x => e.isTemp = true ∧ LBInv (vw h x.slots) ∧ (x.cow = g ∨ x.cow = false)

theorem qset_user {h : Heap} {sp : History.Pool} {n : Nat} {b : Bool} {i : Nat} {S : NSet}
    (hS : sp[i]? = some (some S)) : qset h sp ⟨n, b, .user i⟩ = S := by
  simp [qset, History.get, hS]

theorem QOk.keep {h h' : Heap} {sp : History.Pool} {e : PQElemOf QRef} (a : QOk g h sp e) (q : Keep h h' (qref e)) :
    QOk g h' sp e := by
  obtain ⟨n, b, r⟩ := e
  cases r with
  | user i => exact a
  | temp x =>
    simp only [QOk] at a ⊢
    rw [Keep.vw (s := x.slots) q]
    exact a

theorem qset_keep {h h' : Heap} (sp : History.Pool) {e : PQElemOf QRef} (q : Keep h h' (qref e)) :
    qset h' sp e = qset h sp e := by
  obtain ⟨n, b, r⟩ := e
  cases r with
  | user i => rfl
  | temp x =>
    simp only [qset]
    rw [Keep.vw (s := x.slots) q]

def qrefs (pq : HPQ) : List Ref := pq.flatMap qref

def qunion (h : Heap) (sp : History.Pool) (pq : HPQ) : NSet := fun v => pq.any (fun e => qset h sp e v)

theorem qrefs_perm {a b : HPQ} (p : a.Perm b) (r : Ref) : (qrefs a).count r = (qrefs b).count r :=
  (List.Perm.flatMap_right qref p).count_eq r

theorem qunion_perm {h : Heap} {sp : History.Pool} {a b : HPQ} (p : a.Perm b) : qunion h sp a = qunion h sp b := by
  funext v; exact p.any_eq

theorem qunion_keep {h h' : Heap} {sp : History.Pool} {a : HPQ} (q : Keep h h' (qrefs a)) :
    qunion h' sp a = qunion h sp a := by
  funext v
  simp only [qunion]
  induction a with
  | nil => rfl
  | cons e t ih =>
    simp only [List.any_cons]
    rw [qset_keep sp (e := e) (q.mono (by simp [qrefs])), ih (q.mono (by simp [qrefs]))]

theorem mem_qrefs {a : HPQ} {e : PQElemOf QRef} (he : e ∈ a) : qref e ⊆ qrefs a := by
  intro r hr
  exact List.mem_flatMap.2 ⟨e, he, hr⟩

theorem hPqElements_ok {h : Heap} {p : List (Option HBitmap)} {sp : History.Pool} {L : List Ref}
    (iv : HInv g h (prefs p ++ L)) (a : PRel g h p sp) : ∀ {is : List Nat} {l : List NSet},
    History.gets sp is = some l → ∃ pq, hPqElements h p is = some pq ∧ qrefs pq = [] ∧ (∀ e ∈ pq, QOk g h sp e) ∧
      qunion h sp pq = History.unionAll l ∧ pq.length = is.length := by
  intro is
  induction is with
  | nil => intro l hs; obtain rfl := gets_nil hs; exact ⟨[], rfl, rfl, by simp, rfl, rfl⟩
  | cons i is ih =>
    intro l hs
    obtain ⟨S, t, hS, ht, rfl⟩ := gets_cons hs
    obtain ⟨x, e, ep, b⟩ := a.pget hS
    obtain ⟨pq, e1, r1, k1, u1, l1⟩ := ih ht
    have hz : hSize h x = some _ := hSize_ok iv (fun r hr => List.mem_append_left _ (mem_prefs ep hr))
    refine ⟨⟨rbPortableSize (vw h x.slots), false, .user i⟩ :: pq,
      by simp only [hPqElements, e, hz, e1, Option.bind_eq_bind, Option.bind_some], ?_, ?_, ?_, by simp [l1]⟩
    · simpa [qrefs, qref] using r1
    · intro q hq
      rcases List.mem_cons.1 hq with rfl | hq
      · exact ⟨rfl, S, hS⟩
      · exact k1 q hq
    · rw [unionAll_cons, ← u1]
      funext v
      simp only [qunion, List.any_cons, qset_user hS, Spec.union]

theorem hPqCombine_ok (o : Nat → Bool) (caps1 caps2 : Nat → Nat) {h : Heap} {p : List (Option HBitmap)}
    {sp : History.Pool} {L : List Ref} {x1 x2 : PQElemOf QRef}
    (iv : HInv g h (qref x1 ++ (qref x2 ++ (prefs p ++ L)))) (a : PRel g h p sp) (k1 : QOk g h sp x1)
    (k2 : QOk g h sp x2) :
    ∃ e p' h', hPqCombine o caps1 caps2 h p x1 x2 = some (e, p', h') ∧ HInv g h' (qref e ++ (prefs p' ++ L)) ∧
      PRel g h' p' sp ∧ QOk g h' sp e ∧ e.isTemp = true ∧
      qset h' sp e = Spec.union (qset h sp x1) (qset h sp x2) ∧ Keep h h' L := by
  obtain ⟨n1, b1, r1⟩ := x1
  obtain ⟨n2, b2, r2⟩ := x2
  cases r1 with
  | user i =>
    obtain ⟨t1, S, hS⟩ := k1
    simp only at t1
    subst t1
    cases r2 with
    | user j =>
      obtain ⟨t2, T, hT⟩ := k2
      simp only at t2
      subst t2
      obtain ⟨z, p', h', e, i', a', ⟨c, f⟩, q⟩ := poolNew2_ok (hLazyOr_ok o false) (hLazyOr_self o false)
        (p := p) (L := L) (by simpa [qref] using iv) a hS hT
      have hz : hSize h' z = some _ := hSize_ok i' (by sub_tac)
      refine ⟨⟨rbPortableSize (vw h' z.slots), true, .temp z⟩, p', h', by
          simp only [hPqCombine, e, hz, Option.bind_eq_bind, Option.bind_some], i', a',
        ⟨rfl, c.1, Or.inl f⟩, rfl, ?_, q⟩
      rw [qset_user hS, qset_user hT]
      funext v; exact c.2 v
    | temp x =>
      obtain ⟨t2, bx, fx⟩ := k2
      simp only at t2
      subst t2
      obtain ⟨z, p', h', e, i', a', ⟨c, f⟩, q⟩ := poolUpd_ok (hLazyOrInplace_ok o false caps2)
        (p := p) (L := L) (z := x) (T := fun v => bhas (vw h x.slots) v) (by simpa [qref] using iv) ⟨bx, fun _ => rfl⟩ a hS
      have hz : hSize h' z = some _ := hSize_ok i' (by sub_tac)
      refine ⟨⟨rbPortableSize (vw h' z.slots), true, .temp z⟩, p', h', by
          simp only [hPqCombine, e, hz, Option.bind_eq_bind, Option.bind_some], i', a',
        ⟨rfl, c.1, ?_⟩, rfl, ?_, q⟩
      · rcases f with f | f
        · rw [f]; exact fx
        · exact Or.inl f
      · rw [qset_user hS]
        funext v
        refine (c.2 v).trans ?_
        simp only [Spec.union, qset]
        rw [Bool.or_comm]
  | temp x =>
    obtain ⟨t1, bx, fx⟩ := k1
    simp only at t1
    subst t1
    cases r2 with
    | user j =>
      obtain ⟨t2, S, hS⟩ := k2
      simp only at t2
      subst t2
      obtain ⟨z, p', h', e, i', a', ⟨c, f⟩, q⟩ := poolUpd_ok (hLazyOrInplace_ok o false caps1)
        (p := p) (L := L) (z := x) (T := fun v => bhas (vw h x.slots) v) (by simpa [qref] using iv) ⟨bx, fun _ => rfl⟩ a hS
      have hz : hSize h' z = some _ := hSize_ok i' (by sub_tac)
      refine ⟨⟨rbPortableSize (vw h' z.slots), true, .temp z⟩, p', h', by
          simp only [hPqCombine, e, hz, Option.bind_eq_bind, Option.bind_some], i', a',
        ⟨rfl, c.1, ?_⟩, rfl, ?_, q⟩
      · rcases f with f | f
        · rw [f]; exact fx
        · exact Or.inl f
      · rw [qset_user hS]
        funext v
        exact c.2 v
    | temp y =>
      obtain ⟨t2, by_, fy⟩ := k2
      simp only at t2
      subst t2
      obtain ⟨z, h', e, i', f, c, q⟩ := hLazyLazy_ok o caps1 caps2 (x := x) (y := y)
        (S := fun v => bhas (vw h x.slots) v) (T := fun v => bhas (vw h y.slots) v) (l := prefs p ++ L)
        iv ⟨bx, fun _ => rfl⟩ ⟨by_, fun _ => rfl⟩
      have hz : hSize h' z = some _ := hSize_ok i' (by sub_tac)
      refine ⟨⟨rbPortableSize (vw h' z.slots), true, .temp z⟩, p, h', by
          simp only [hPqCombine, e, hz, Option.bind_eq_bind, Option.bind_some], i',
        a.keep (q.mono (by sub_tac)), ⟨rfl, c.1, ?_⟩, rfl, ?_, q.mono (by sub_tac)⟩
      · rcases f with f | f | f
        · rw [f]; exact fx
        · rw [f]; exact fy
        · exact Or.inr f
      · funext v
        exact c.2 v

/-- All is well with a queue. -/
structure HeapQInv (g : Bool) (h : Heap) (p : List (Option HBitmap)) (sp : History.Pool) (L : List Ref) (pq : HPQ) :
    Prop where
  heap : HInv g h (qrefs pq ++ (prefs p ++ L))
  pool : PRel g h p sp
  elems : ∀ e ∈ pq, QOk g h sp e

theorem HeapQInv.perm {h : Heap} {p : List (Option HBitmap)} {sp : History.Pool} {L : List Ref} {a b : HPQ}
    (q : HeapQInv g h p sp L a) (e : b.Perm a) : HeapQInv g h p sp L b :=
  ⟨q.heap.perm (fun r => by simp only [List.count_append]; rw [qrefs_perm e r]), q.pool,
    fun x hx => q.elems x (e.mem_iff.1 hx)⟩

theorem hPqLoop_ok (o : Nat → Bool) (caps : Nat → Nat) {sp : History.Pool} {L : List Ref} : ∀ (n : Nat) (h : Heap)
    (p : List (Option HBitmap)) (pq : HPQ), pq.length ≤ n → (2 ≤ pq.length ∨ ∃ e, pq = [e] ∧ e.isTemp = true) →
    HeapQInv g h p sp L pq →
    ∃ e p' h', hPqLoop o caps n h p pq = some ([e], p', h') ∧ e.isTemp = true ∧ HeapQInv g h' p' sp L [e] ∧
      qset h' sp e = qunion h sp pq ∧ Keep h h' L := by
  intro n
  induction n with
  | zero =>
    intro h p pq hn hl q
    rcases hl with hl | ⟨e, rfl, _⟩
    · omega
    · simp at hn
  | succ n ih =>
    intro h p pq hn hl q
    simp only [hPqLoop]
    by_cases hl2 : pq.length > 1
    · rw [if_pos hl2]
      have m1 := pqPoll_perm pq (by omega)
      have l1 : (pqPoll pq).2.length + 1 = pq.length := by simpa using m1.length_eq
      have m2 := pqPoll_perm (pqPoll pq).2 (by omega)
      have l2 : (pqPoll (pqPoll pq).2).2.length + 1 = (pqPoll pq).2.length := by simpa using m2.length_eq
      have m3 : ((pqPoll pq).1 :: (pqPoll (pqPoll pq).2).1 :: (pqPoll (pqPoll pq).2).2).Perm pq :=
        (m2.cons _).trans m1
      generalize (pqPoll (pqPoll pq).2).2 = rest at l2 m3 ⊢
      generalize (pqPoll (pqPoll pq).2).1 = x2 at m3 ⊢
      generalize (pqPoll pq).1 = x1 at m3 ⊢
      have q3 := q.perm m3
      obtain ⟨e, p', h', e1, i1, a1, k1, t1, s1, kp⟩ := hPqCombine_ok (round o (n + 1)) (round caps (2 * n))
        (round caps (2 * n + 1)) (x1 := x1) (x2 := x2) (L := qrefs rest ++ L)
        (q3.heap.perm (fun r => by simp only [qrefs, List.flatMap_cons, List.count_append]; omega)) q3.pool
        (q3.elems x1 (by simp)) (q3.elems x2 (by simp))
      simp only [e1, Option.bind_eq_bind, Option.bind_some]
      have m4 := pqAdd_perm rest e
      have kr : Keep h h' (qrefs rest) := kp.mono (by sub_tac)
      have q4 : HeapQInv g h' p' sp L (e :: rest) := by
        refine ⟨i1.perm (fun r => by simp only [qrefs, List.flatMap_cons, List.count_append]; omega), a1, ?_⟩
        intro x hx
        rcases List.mem_cons.1 hx with rfl | hx
        · exact k1
        · exact (q3.elems x (by simp [hx])).keep (kr.mono (mem_qrefs hx))
      have l4 : (pqAdd rest e).length = rest.length + 1 := by simpa using m4.length_eq
      have hl4 : 2 ≤ (pqAdd rest e).length ∨ ∃ x, pqAdd rest e = [x] ∧ x.isTemp = true := by
        by_cases hr : rest.length = 0
        · right
          obtain rfl := List.length_eq_zero_iff.1 hr
          exact ⟨e, List.perm_singleton.1 m4, t1⟩
        · left; omega
      obtain ⟨e', p'', h'', e2, t2, q5, s2, kp2⟩ := ih h' p' (pqAdd rest e) (by omega) hl4 (q4.perm m4)
      refine ⟨e', p'', h'', e2, t2, q5, ?_, (kp.mono (by sub_tac)).trans kp2 (List.Subset.refl _) (List.Subset.refl _)⟩
      rw [s2, qunion_perm m4, ← qunion_perm m3]
      have : qunion h' sp (e :: rest) = Spec.union (qset h' sp e) (qunion h' sp rest) := by
        funext v; simp [qunion, Spec.union]
      rw [this, s1, qunion_keep kr]
      funext v
      simp [qunion, Spec.union, Bool.or_assoc]
    · rw [if_neg hl2]
      rcases hl with hl | ⟨e, rfl, ht⟩
      · omega
      · exact ⟨e, p, h, rfl, ht, q, by funext v; simp [qunion], Keep.refl _ _⟩

/-- The union with a priority queue: the answer is the union whether or not copy-on-write is used, and it has no shared
container, but its flag may differ. -/
theorem hOrManyHeap_ok (o : Nat → Bool) (caps : Nat → Nat) {h : Heap} {p : List (Option HBitmap)} {sp : History.Pool}
    {L : List Ref} (iv : HInv g h (prefs p ++ L)) (a : PRel g h p sp) {is : List Nat} {l : List NSet}
    (hs : History.gets sp is = some l) :
    NewOk g h sp L (hOrManyHeap o caps h p is)
      (fun h' n => ∃ f, (f = g ∨ f = false) ∧ Good f h' n (History.unionAll l) ∧
        (2 ≤ is.length → ∀ s ∈ n.slots, s.2.sh = false)) := by
  match is, hs with
  | [], hs =>
    obtain rfl := gets_nil hs
    exact ⟨hCreate false, p, h, rfl, by simpa [hCreate] using iv, a,
      ⟨false, Or.inr rfl, ⟨rfl, trivial, fun _ => rfl⟩, by simp⟩, Keep.refl _ _⟩
  | [i], hs =>
    obtain ⟨S, t, hS, ht, rfl⟩ := gets_cons hs
    obtain rfl := gets_nil ht
    rw [unionAll_single]
    obtain ⟨n, p', h', e, i', a', c, q⟩ := poolCopy_ok iv a hS
    exact ⟨n, p', h', e, i', a', ⟨g, Or.inl rfl, c, by simp⟩, q⟩
  | i :: j :: is, hs =>
    obtain ⟨pq, e1, r1, k1, u1, l1⟩ := hPqElements_ok iv a hs
    simp only [List.length_cons] at l1
    have hp := pqHeapify_perm (pq.length / 2) pq (by omega)
    have q1 : HeapQInv g h p sp L pq := ⟨by rw [r1]; exact iv, a, k1⟩
    have hl := hp.length_eq
    obtain ⟨e, p', h', e2, t2, q2, s2, kp⟩ := hPqLoop_ok o caps pq.length h p (pqHeapify pq (pq.length / 2))
      (by omega) (Or.inl (by omega)) (q1.perm hp)
    have m := pqPoll_perm [e] (by simp)
    have hx : (pqPoll [e]).1 = e := by
      have := m.mem_iff (a := (pqPoll [e]).1)
      simpa using this
    obtain ⟨sz, b, x⟩ := e
    cases x with
    | user i => have := q2.elems _ (List.mem_singleton.2 rfl); simp [QOk] at this; simp [this.1] at t2
    | temp x =>
      have k2 := q2.elems _ (List.mem_singleton.2 rfl)
      simp only [QOk] at k2
      obtain ⟨_, bx, fx⟩ := k2
      obtain ⟨z, h3, e3, i3, a3, ⟨c3, n3⟩, q3⟩ := repair_new (round o 0) (z := x) (p := p') (sp := sp) (L := L)
        (T := fun v => bhas (vw h' x.slots) v) (by simpa [qrefs, qref] using q2.heap) ⟨bx, fun _ => rfl⟩ q2.pool
      refine ⟨z, p', h3, by simp [hOrManyHeap, e1, e2, hx, e3], i3, a3, ⟨x.cow, fx, ?_, fun _ => n3⟩,
        kp.trans q3 (List.Subset.refl _) (List.Subset.refl _)⟩
      rw [← u1, ← qunion_perm hp, ← s2]
      exact c3

theorem stepMany_ok {u : Heap → List (Option HBitmap) → List Nat → Option (HBitmap × List (Option HBitmap) × Heap)}
    {f : List NSet → NSet} {w : World} {sp sp' : History.Pool} {is : List Nat} (a : WInv g w sp)
    (ok : ∀ l, History.gets sp is = some l → NewOk g w.heap sp [] (u w.heap w.pool is) (fun h' n => Good g h' n (f l)))
    (hs : History.newMany sp is f = some sp') : ∃ w', stepMany u w is = some w' ∧ WInv g w' sp' := by
  simp only [History.newMany, Option.bind_eq_bind, Option.bind_eq_some_iff, Option.some.injEq] at hs
  obtain ⟨l, hl, rfl⟩ := hs
  obtain ⟨n, p', h', e, i', a', c, _⟩ := ok l hl
  refine ⟨⟨h', p' ++ [some n]⟩, by simp [stepMany, e], i'.perm (fun r => ?_), a'.append c⟩
  simp only [prefs_append, List.count_append, prefs, List.append_nil]; omega

end CRoaring
