import Verif.Lemmas.Cow10
import Verif.HistorySpec

set_option linter.unusedSimpArgs false
set_option linter.unusedVariables false

namespace CRoaring
open Spec

variable {g : Bool}

/-- All pointers of a pool. -/
def prefs : List (Option HBitmap) → List Ref
  | [] => []
  | none :: t => prefs t
  | some x :: t => refs x.slots ++ prefs t

/-- An entry of the pool and the entry of the abstract one. -/
def ERel (g : Bool) (h : Heap) : Option (Option HBitmap) → Option (Option NSet) → Prop
  | none, none => True
  | some none, some none => True
  | some (some x), some (some S) => Good g h x S
  | _, _ => False

def PRel (g : Bool) (h : Heap) (p : List (Option HBitmap)) (sp : History.Pool) : Prop :=
  ∀ k : Nat, ERel g h p[k]? sp[k]?

def WInv (g : Bool) (w : World) (sp : History.Pool) : Prop :=
  HInv g w.heap (prefs w.pool) ∧ PRel g w.heap w.pool sp

theorem prefs_append (p q : List (Option HBitmap)) : prefs (p ++ q) = prefs p ++ prefs q := by
  induction p with
  | nil => rfl
  | cons a t ih => cases a <;> simp [prefs, ih]

theorem prefs_take {p : List (Option HBitmap)} : ∀ {i : Nat} {x : HBitmap}, p[i]? = some (some x) → ∀ r,
    (prefs p).count r = (refs x.slots).count r + (prefs (p.set i none)).count r := by
  induction p with
  | nil => intro i x h; simp at h
  | cons a t ih =>
    intro i x h r
    cases i with
    | zero =>
      simp only [List.getElem?_cons_zero, Option.some.injEq] at h
      subst h
      simp [prefs, List.count_append]
    | succ i =>
      have := ih (i := i) (x := x) (by simpa using h) r
      cases a <;> simp only [List.set_cons_succ, prefs, List.count_append] <;> omega

theorem prefs_put {p : List (Option HBitmap)} {i : Nat} (hi : i < p.length) (x : HBitmap) (r : Ref) :
    (prefs (p.set i (some x))).count r = (refs x.slots).count r + (prefs (p.set i none)).count r := by
  have := prefs_take (p := p.set i (some x)) (i := i) (x := x) (by simp [hi]) r
  rwa [List.set_set] at this

theorem mem_prefs {p : List (Option HBitmap)} : ∀ {i : Nat} {x : HBitmap}, p[i]? = some (some x) →
    refs x.slots ⊆ prefs p := by
  intro i x h r hr
  have := prefs_take h r
  rw [← List.count_pos_iff] at hr ⊢
  omega

theorem mem_prefs_inv {p : List (Option HBitmap)} : ∀ {r : Ref}, r ∈ prefs p →
    ∃ (i : Nat) (x : HBitmap), p[i]? = some (some x) ∧ r ∈ refs x.slots := by
  induction p with
  | nil => intro r h; simp [prefs] at h
  | cons a t ih =>
    intro r h
    cases a with
    | none =>
      obtain ⟨i, x, h1, h2⟩ := ih h
      exact ⟨i + 1, x, by simpa using h1, h2⟩
    | some y =>
      simp only [prefs, List.mem_append] at h
      rcases h with h | h
      · exact ⟨0, y, rfl, h⟩
      · obtain ⟨i, x, h1, h2⟩ := ih h
        exact ⟨i + 1, x, by simpa using h1, h2⟩

theorem PRel.keep {h h' : Heap} {p : List (Option HBitmap)} {sp : History.Pool} (a : PRel g h p sp)
    (q : Keep h h' (prefs p)) : PRel g h' p sp := by
  intro k
  have := a k
  revert this
  cases hp : p[k]? with
  | none => cases sp[k]? <;> simp [ERel]
  | some o =>
    cases o with
    | none => cases hs : sp[k]? with
      | none => simp [ERel]
      | some S => cases S <;> simp [ERel]
    | some x => cases hs : sp[k]? with
      | none => simp [ERel]
      | some S =>
        cases S with
        | none => simp [ERel]
        | some S => exact fun b => b.keep q (mem_prefs hp)

theorem PRel.length {h : Heap} {p : List (Option HBitmap)} {sp : History.Pool} (a : PRel g h p sp) :
    p.length = sp.length := by
  have h1 := a p.length
  have h2 := a sp.length
  rw [List.getElem?_eq_none (Nat.le_refl _)] at h1
  rw [List.getElem?_eq_none (l := sp) (Nat.le_refl _)] at h2
  have h3 : sp.length ≤ p.length := by
    cases hs : sp[p.length]? with
    | none => exact List.getElem?_eq_none_iff.1 hs
    | some S => rw [hs] at h1; cases S <;> exact h1.elim
  have h4 : p.length ≤ sp.length := by
    cases hs : p[sp.length]? with
    | none => exact List.getElem?_eq_none_iff.1 hs
    | some S => rw [hs] at h2; cases S <;> exact h2.elim
  omega

theorem PRel.set {h : Heap} {p : List (Option HBitmap)} {sp : History.Pool} (a : PRel g h p sp) (i : Nat)
    {x : HBitmap} {S : NSet} (b : Good g h x S) : PRel g h (p.set i (some x)) (sp.set i (some S)) := by
  intro k
  have hl := a.length
  by_cases hk : i = k
  · subst hk
    by_cases hi : i < p.length
    · simpa [List.getElem?_set, hi, hl ▸ hi, ERel] using b
    · rw [List.getElem?_eq_none (by simp; omega), List.getElem?_eq_none (by simp; omega)]
      trivial
  · simpa [List.getElem?_set, hk] using a k

theorem PRel.clear {h : Heap} {p : List (Option HBitmap)} {sp : History.Pool} (a : PRel g h p sp) (i : Nat) :
    PRel g h (p.set i none) (sp.set i none) := by
  intro k
  have hl := a.length
  by_cases hk : i = k
  · subst hk
    by_cases hi : i < p.length
    · simp [List.getElem?_set, hi, hl ▸ hi, ERel]
    · rw [List.getElem?_eq_none (by simp; omega), List.getElem?_eq_none (by simp; omega)]
      trivial
  · simpa [List.getElem?_set, hk] using a k

theorem PRel.append {h : Heap} {p : List (Option HBitmap)} {sp : History.Pool} (a : PRel g h p sp)
    {x : HBitmap} {S : NSet} (b : Good g h x S) : PRel g h (p ++ [some x]) (sp ++ [some S]) := by
  intro k
  have hl := a.length
  by_cases hk : k < p.length
  · rw [List.getElem?_append_left hk, List.getElem?_append_left (hl ▸ hk)]
    exact a k
  · by_cases hk2 : k = p.length
    · subst hk2
      rw [List.getElem?_append_right (Nat.le_refl _), List.getElem?_append_right (by omega), hl]
      simpa [ERel] using b
    · rw [List.getElem?_eq_none (by simp; omega), List.getElem?_eq_none (by simp; omega)]
      trivial

theorem get_some {sp : History.Pool} {i : Nat} {S : NSet} (hs : History.get sp i = some S) :
    sp[i]? = some (some S) := by
  unfold History.get at hs
  cases h : sp[i]? with
  | none => simp [h] at hs
  | some o => cases o <;> simp_all

theorem PRel.get {w : World} {sp : History.Pool} (a : PRel g w.heap w.pool sp) {i : Nat} {S : NSet}
    (hs : sp[i]? = some (some S)) : ∃ x, w.get i = some x ∧ w.pool[i]? = some (some x) ∧ Good g w.heap x S := by
  have := a i
  rw [hs] at this
  cases hp : w.pool[i]? with
  | none => rw [hp] at this; exact this.elim
  | some o =>
    rw [hp] at this
    cases o with
    | none => exact this.elim
    | some x => exact ⟨x, by simp [World.get, hp], rfl, this⟩

theorem set_same {sp : History.Pool} {i : Nat} {S : NSet} (hs : sp[i]? = some (some S)) : sp.set i (some S) = sp := by
  apply List.ext_getElem?
  intro k
  rw [List.getElem?_set]
  split
  · rename_i h; subst h
    have : i < sp.length := (List.getElem?_eq_some_iff.1 hs).1
    rw [if_pos this, hs]
  · rfl

theorem lt_of_get {α : Type} {l : List α} {i : Nat} {a : α} (h : l[i]? = some a) : i < l.length :=
  (List.getElem?_eq_some_iff.1 h).1

theorem stepU_ok {u : Heap → HBitmap → Option (HBitmap × Heap)} {f : NSet → NSet} (ok : UOk g u f) {w : World}
    {sp sp' : History.Pool} {i : Nat} (a : WInv g w sp) (hs : History.upd sp i f = some sp') :
    ∃ w', stepU u w i = some w' ∧ WInv g w' sp' := by
  simp only [History.upd, Option.bind_eq_bind, Option.bind_eq_some_iff, Option.some.injEq] at hs
  obtain ⟨S, hS, rfl⟩ := hs
  have hS := get_some hS
  obtain ⟨x, e, ep, b⟩ := a.2.get hS
  have hi := lt_of_get ep
  obtain ⟨x', h', e2, i2, b2, q⟩ := ok w.heap x (prefs (w.pool.set i none)) S
    (a.1.perm (fun r => by rw [List.count_append, prefs_take ep r])) b
  refine ⟨⟨h', w.pool.set i (some x')⟩, by simp [stepU, e, e2], i2.perm (fun r => ?_), ?_⟩
  · simp only; rw [List.count_append, prefs_put hi]
  · have := ((a.2.clear i).keep q).set i b2
    rwa [List.set_set, List.set_set] at this

theorem stepN_ok {u : Heap → HBitmap → Option (HBitmap × HBitmap × Heap)} {f : NSet → NSet} (ok : NOk g u f) {w : World}
    {sp sp' : History.Pool} {i : Nat} (a : WInv g w sp) (hs : History.new1 sp i f = some sp') :
    ∃ w', stepN u w i = some w' ∧ WInv g w' sp' := by
  simp only [History.new1, Option.bind_eq_bind, Option.bind_eq_some_iff, Option.some.injEq] at hs
  obtain ⟨S, hS, rfl⟩ := hs
  have hS := get_some hS
  obtain ⟨x, e, ep, b⟩ := a.2.get hS
  have hi := lt_of_get ep
  obtain ⟨n, x', h', e2, i2, b1, b2, q⟩ := ok w.heap x (prefs (w.pool.set i none)) S
    (a.1.perm (fun r => by rw [List.count_append, prefs_take ep r])) b
  refine ⟨⟨h', w.pool.set i (some x') ++ [some n]⟩, by simp [stepN, e, e2], i2.perm (fun r => ?_), ?_⟩
  · simp only [prefs_append, List.count_append, prefs, List.append_nil]; rw [prefs_put hi]; omega
  · have := ((a.2.clear i).keep q).set i b2
    rw [List.set_set, List.set_set, set_same hS] at this
    exact this.append b1

theorem two_take {p : List (Option HBitmap)} {i j : Nat} {x y : HBitmap} (hij : i ≠ j) (hx : p[i]? = some (some x))
    (hy : p[j]? = some (some y)) (r : Ref) : (prefs p).count r =
      (refs x.slots).count r + ((refs y.slots).count r + (prefs ((p.set i none).set j none)).count r) := by
  rw [prefs_take hx r, prefs_take (p := p.set i none) (i := j) (x := y) (by rw [List.getElem?_set]; simp [hij, hy]) r]

theorem two_put {p : List (Option HBitmap)} {i j : Nat} {x y : HBitmap} (hij : i ≠ j) (hi : i < p.length)
    (hj : j < p.length) (r : Ref) : (prefs ((p.set j (some y)).set i (some x))).count r =
      (refs x.slots).count r + ((refs y.slots).count r + (prefs ((p.set i none).set j none)).count r) := by
  rw [prefs_put (by simpa using hi), List.set_comm _ _ (Ne.symm hij), prefs_put (by simpa using hj)]

theorem two_set {α : Type} (p : List α) {i j : Nat} (a b x y : α) (hij : i ≠ j) :
    ((((p.set i a).set j b).set j y).set i x) = (p.set j y).set i x := by
  rw [List.set_set, List.set_comm _ _ (Ne.symm hij), List.set_set, List.set_comm _ _ hij]

theorem stepB_ok {u : Heap → HBitmap → HBitmap → Option (HBitmap × HBitmap × Heap)} {f : NSet → NSet → NSet}
    (ok : BOk g u f) {w : World} {sp sp' : History.Pool} {i j : Nat} (a : WInv g w sp)
    (hs : History.upd2 sp i j f = some sp') : ∃ w', stepB u w i j = some w' ∧ WInv g w' sp' := by
  simp only [History.upd2, Option.bind_eq_bind, Option.bind_eq_some_iff] at hs
  obtain ⟨S, hS, T, hT, hs⟩ := hs
  have hij : i ≠ j := fun h => by simp [h] at hs
  rw [if_neg hij, Option.some.injEq] at hs
  subst hs
  have hS := get_some hS
  have hT := get_some hT
  obtain ⟨x, e, ep, b⟩ := a.2.get hS
  obtain ⟨y, ey, epy, c⟩ := a.2.get hT
  have hi := lt_of_get ep
  have hj := lt_of_get epy
  obtain ⟨x', y', h', e2, i2, b1, b2, q⟩ := ok w.heap x y (prefs ((w.pool.set i none).set j none)) S T
    (a.1.perm (fun r => by rw [List.count_append, List.count_append, two_take hij ep epy r])) b c
  refine ⟨⟨h', (w.pool.set j (some y')).set i (some x')⟩, by simp [stepB, e, ey, e2], i2.perm (fun r => ?_), ?_⟩
  · simp only; rw [List.count_append, List.count_append, two_put hij hi hj]
  · have := ((((a.2.clear i).clear j).keep q).set j b2).set i b1
    rwa [two_set _ _ _ _ _ hij, two_set _ _ _ _ _ hij, set_same hT] at this

theorem stepM_ok {u : Heap → HBitmap → HBitmap → Option (HBitmap × HBitmap × HBitmap × Heap)} {f : NSet → NSet → NSet}
    (ok : MOk g u f) (ok2 : SOk g u f) {w : World} {sp sp' : History.Pool} {i j : Nat} (a : WInv g w sp)
    (hs : History.new2 sp i j f = some sp') : ∃ w', stepM u w i j = some w' ∧ WInv g w' sp' := by
  simp only [History.new2, Option.bind_eq_bind, Option.bind_eq_some_iff, Option.some.injEq] at hs
  obtain ⟨S, hS, T, hT, rfl⟩ := hs
  have hS := get_some hS
  have hT := get_some hT
  obtain ⟨x, e, ep, b⟩ := a.2.get hS
  obtain ⟨y, ey, epy, c⟩ := a.2.get hT
  have hi := lt_of_get ep
  have hj := lt_of_get epy
  by_cases hij : i = j
  · subst hij
    obtain rfl : x = y := by rw [e] at ey; exact Option.some.inj ey
    obtain rfl : S = T := by rw [hS] at hT; exact Option.some.inj (Option.some.inj hT)
    obtain ⟨n, x', y', h', e2, i2, b1, b2, q⟩ := ok2 w.heap x (prefs (w.pool.set i none)) S
      (a.1.perm (fun r => by rw [List.count_append, prefs_take ep r])) b
    refine ⟨⟨h', (w.pool.set i (some y')).set i (some x') ++ [some n]⟩, by simp [stepM, e, e2],
      i2.perm (fun r => ?_), ?_⟩
    · simp only [prefs_append, List.count_append, prefs, List.append_nil, List.set_set]; rw [prefs_put hi]; omega
    · have := ((a.2.clear i).keep q).set i b2
      rw [List.set_set, List.set_set, set_same hS] at this
      simp only [List.set_set]
      exact this.append b1
  · obtain ⟨n, x', y', h', e2, i2, b0, b1, b2, q⟩ := ok w.heap x y (prefs ((w.pool.set i none).set j none)) S T
      (a.1.perm (fun r => by rw [List.count_append, List.count_append, two_take hij ep epy r])) b c
    refine ⟨⟨h', (w.pool.set j (some y')).set i (some x') ++ [some n]⟩, by simp [stepM, e, ey, e2],
      i2.perm (fun r => ?_), ?_⟩
    · simp only [prefs_append, List.count_append, prefs, List.append_nil]; rw [two_put hij hi hj]; omega
    · have := ((((a.2.clear i).clear j).keep q).set j b2).set i b1
      rw [two_set _ _ _ _ _ hij, two_set _ _ _ _ _ hij, set_same hT, set_same hS] at this
      exact this.append b0

theorem u32_some {v : Nat} {a : Option History.Pool} {p : History.Pool} (h : History.u32 v a = some p) :
    v < 4294967296 ∧ a = some p := by
  unfold History.u32 at h
  split at h
  · exact ⟨by assumption, h⟩
  · simp at h

end CRoaring
