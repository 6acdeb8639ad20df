import Verif.Model.ArtHeap
import Verif.Lemmas.ArtTree
/-
The operations on a node do not look at its children: they commute with a map of the children.
-/
set_option linter.unusedSimpArgs false
set_option linter.unusedVariables false
namespace CRoaring
open Spec

section
variable {α β : Type}

def mapKs (f : α → β) (ks : List (Nat × α)) : List (Nat × β) := ks.map (fun p => (p.1, f p.2))
def N48.map (f : α → β) (n : N48 α) : N48 β := ⟨n.count, n.avail, n.keys, n.children.map (Option.map f)⟩
def N256.map (f : α → β) (n : N256 α) : N256 β := ⟨n.count, n.children.map (Option.map f)⟩
def Node.map (f : α → β) : Node α → Node β
  | .n4 ks => .n4 (mapKs f ks)
  | .n16 ks => .n16 (mapKs f ks)
  | .n48 n => .n48 (n.map f)
  | .n256 n => .n256 (n.map f)

theorem mapKs_length (f : α → β) (ks : List (Nat × α)) : (mapKs f ks).length = ks.length := by simp [mapKs]

theorem findKs_map (f : α → β) (ks : List (Nat × α)) (c : Nat) : findKs (mapKs f ks) c = (findKs ks c).map f := by
  unfold findKs mapKs
  rw [List.find?_map, Option.map_map, Option.map_map]
  rfl

theorem getD_map_opt (f : α → β) (l : List (Option α)) (i : Nat) : (l.map (Option.map f)).getD i none = (l.getD i none).map f := by
  simp only [List.getD_eq_getElem?_getD, List.getElem?_map]
  cases l[i]? <;> rfl

theorem Node.find_map (f : α → β) (n : Node α) (c : Nat) : (n.map f).find c = (n.find c).map f := by
  cases n with
  | n4 ks => exact findKs_map f ks c
  | n16 ks => exact findKs_map f ks c
  | n48 n =>
    show N48.find _ c = (N48.find n c).map f
    unfold N48.find N48.map
    by_cases h : n.keys.getD c NODE48_EMPTY ≠ NODE48_EMPTY
    · simp only [if_pos h]; exact getD_map_opt f _ _
    · simp only [if_neg h]; rfl
  | n256 n => exact getD_map_opt f _ _

theorem insertKs_map (f : α → β) (ks : List (Nat × α)) (x : α) (c : Nat) : mapKs f (insertKs ks x c) = insertKs (mapKs f ks) (f x) c := by
  unfold insertKs mapKs
  rw [List.takeWhile_map, List.dropWhile_map, List.map_append, List.map_cons]
  rfl

theorem put_map (f : α → β) (n : N48 α) (x : Option α) (c : Nat) : (n.put x c).map f = (n.map f).put (x.map f) c := by
  simp [N48.put, N48.map, List.map_set]

theorem n256insert_map (f : α → β) (n : N256 α) (x : Option α) (c : Nat) : (n.insert x c).map f = (n.map f).insert (x.map f) c := by
  simp [N256.insert, N256.map, List.map_set]

theorem n48create_map (f : α → β) : (N48.create : N48 α).map f = N48.create := by
  simp only [N48.create, N48.map, List.map_replicate, Option.map_none]

theorem n256create_map (f : α → β) : (N256.create : N256 α).map f = N256.create := by
  simp only [N256.create, N256.map, List.map_replicate, Option.map_none]

theorem foldInsert_map (f : α → β) (l : List (Nat × α)) (m : List (Nat × α)) :
    mapKs f (l.foldl (fun m p => insertKs m p.2 p.1) m) = (mapKs f l).foldl (fun m p => insertKs m p.2 p.1) (mapKs f m) := by
  induction l generalizing m with
  | nil => rfl
  | cons p l ih =>
    show mapKs f (l.foldl _ _) = (mapKs f l).foldl _ _
    rw [ih, insertKs_map]

theorem foldPut_map (f : α → β) (l : List (Nat × α)) (m : N48 α) :
    (l.foldl (fun m p => m.put (some p.2) p.1) m).map f = (mapKs f l).foldl (fun m p => m.put (some p.2) p.1) (m.map f) := by
  induction l generalizing m with
  | nil => rfl
  | cons p l ih =>
    simp only [List.foldl_cons]
    rw [ih, put_map]
    rfl

theorem take_mapKs (f : α → β) (l : List (Nat × α)) (n : Nat) : mapKs f (l.take n) = (mapKs f l).take n := by
  simp [mapKs, List.map_take]

theorem foldl_commute {γ δ : Type} (g : γ → δ) {ι : Type} (s : γ → ι → γ) (s' : δ → ι → δ) (h : ∀ m i, g (s m i) = s' (g m) i) (l : List ι)
    (m : γ) : g (l.foldl s m) = l.foldl s' (g m) := by
  induction l generalizing m with
  | nil => rfl
  | cons a l ih => simp only [List.foldl_cons]; rw [ih, h]

theorem grow_map (f : α → β) (n : N48 α) : n.grow.map f = (n.map f).grow := by
  unfold N48.grow
  rw [foldl_commute (N256.map f) _ _ _ _ _, n256create_map]
  intro m i
  by_cases h : n.keys.getD i NODE48_EMPTY ≠ NODE48_EMPTY
  · have h' : (n.map f).keys.getD i NODE48_EMPTY ≠ NODE48_EMPTY := h
    simp only [if_pos h, if_pos h']
    rw [n256insert_map]
    congr 1
    exact (getD_map_opt f _ _).symm
  · have h' : ¬ (n.map f).keys.getD i NODE48_EMPTY ≠ NODE48_EMPTY := h
    simp only [if_neg h, if_neg h']

theorem shrink48_map (f : α → β) (n : N48 α) : mapKs f n.shrink = (n.map f).shrink := by
  unfold N48.shrink
  rw [foldl_commute (mapKs f) _ _ _ _ _]
  · rfl
  intro m i
  by_cases h : n.keys.getD i NODE48_EMPTY ≠ NODE48_EMPTY
  · have h' : (n.map f).keys.getD i NODE48_EMPTY ≠ NODE48_EMPTY := h
    have e : (n.map f).children.getD ((n.map f).keys.getD i NODE48_EMPTY) none = (n.children.getD (n.keys.getD i NODE48_EMPTY) none).map f :=
      getD_map_opt f _ _
    simp only [if_pos h, if_pos h', e]
    cases n.children.getD (n.keys.getD i NODE48_EMPTY) none with
    | none => rfl
    | some c => exact insertKs_map f m c i
  · have h' : ¬ (n.map f).keys.getD i NODE48_EMPTY ≠ NODE48_EMPTY := h
    simp only [if_neg h, if_neg h']

theorem shrink256_map (f : α → β) (n : N256 α) : n.shrink.map f = (n.map f).shrink := by
  unfold N256.shrink
  rw [foldl_commute (N48.map f) _ _ _ _ _, n48create_map]
  intro m i
  have e : (n.map f).children.getD i none = (n.children.getD i none).map f := getD_map_opt f _ _
  simp only [e]
  cases n.children.getD i none with
  | none => rfl
  | some c => exact put_map f m _ i

theorem Node.insert_map (f : α → β) (n : Node α) (x : α) (c : Nat) : (n.insert x c).map f = (n.map f).insert (f x) c := by
  have h48 : ∀ n : N48 α, (n.insert x c).map f = (n.map f).insert (f x) c := by
    intro n
    unfold N48.insert
    by_cases h : n.count < 48
    · have h' : (n.map f).count < 48 := h
      rw [if_pos h, if_pos h']
      show Node.n48 _ = _
      rw [put_map]; rfl
    · have h' : ¬ (n.map f).count < 48 := h
      rw [if_neg h, if_neg h']
      show Node.n256 _ = _
      rw [n256insert_map, grow_map]; rfl
  have h16 : ∀ ks : List (Nat × α), (node16Insert ks x c).map f = node16Insert (mapKs f ks) (f x) c := by
    intro ks
    unfold node16Insert
    rw [mapKs_length]
    by_cases h : ks.length < 16
    · rw [if_pos h, if_pos h]
      show Node.n16 _ = _
      rw [insertKs_map]
    · rw [if_neg h, if_neg h, h48, foldPut_map, n48create_map, take_mapKs]
  cases n with
  | n4 ks =>
    show (node4Insert ks x c).map f = node4Insert (mapKs f ks) (f x) c
    unfold node4Insert
    rw [mapKs_length]
    by_cases h : ks.length < 4
    · rw [if_pos h, if_pos h]
      show Node.n4 _ = _
      rw [insertKs_map]
    · rw [if_neg h, if_neg h, h16, foldInsert_map, take_mapKs]
      rfl
  | n16 ks => exact h16 ks
  | n48 n => exact h48 n
  | n256 n =>
    show Node.n256 _ = Node.n256 _
    rw [n256insert_map]; rfl

/-! ### The layout of a node -/

/-- A node without its children. -/
def Node.shape (n : Node α) : Node Unit := n.map (fun _ => ())

theorem Node.ty_map (f : α → β) (n : Node α) : (n.map f).ty = n.ty := by cases n <;> rfl

theorem shape_ty {n : Node α} {m : Node β} (h : n.shape = m.shape) : n.ty = m.ty := by
  rw [← Node.ty_map (fun _ => ()) n, ← Node.ty_map (fun _ => ()) m]
  exact congrArg Node.ty h

theorem shape_find {n : Node α} {m : Node β} (h : n.shape = m.shape) (c : Nat) : (n.find c).isSome = (m.find c).isSome := by
  have h1 := Node.find_map (fun _ : α => ()) n c
  have h2 := Node.find_map (fun _ : β => ()) m c
  have h3 : (n.find c).map (fun _ : α => ()) = (m.find c).map (fun _ : β => ()) := by
    rw [← h1, ← h2]
    exact congrArg (fun z => Node.find z c) h
  have := congrArg Option.isSome h3
  simpa using this

theorem shape_insert {n : Node α} {m : Node β} (h : n.shape = m.shape) (x : α) (y : β) (c : Nat) : (n.insert x c).shape = (m.insert y c).shape := by
  unfold Node.shape at *
  rw [Node.insert_map, Node.insert_map, h]

theorem mapKs_replace (ks : List (Nat × α)) (c : Nat) (x : α) : mapKs (fun _ => ()) (replaceKs ks c x) = mapKs (fun _ => ()) ks := by
  induction ks with
  | nil => rfl
  | cons p ks ih =>
    obtain ⟨k, y⟩ := p
    unfold replaceKs
    by_cases h : k = c
    · rw [if_pos h]; rfl
    · rw [if_neg h]
      have e : ∀ l : List (Nat × α), mapKs (fun _ => ()) ((k, y) :: l) = (k, ()) :: mapKs (fun _ => ()) l := fun _ => rfl
      rw [e, e, ih]

theorem set_shape (l : List (Option α)) (i : Nat) (y x : α) (h : l.getD i none = some y) :
    (l.set i (some x)).map (Option.map (fun _ => ())) = l.map (Option.map (fun _ => ())) := by
  apply List.ext_getElem?
  intro j
  simp only [List.getElem?_map, List.getElem?_set]
  by_cases hj : i = j
  · subst hj
    rw [List.getD_eq_getElem?_getD] at h
    cases e : l[i]? with
    | none => rw [e] at h; exact absurd h (by simp)
    | some z =>
      rw [e] at h
      simp only [Option.getD_some] at h
      subst h
      have : i < l.length := by
        rcases List.getElem?_eq_some_iff.1 e with ⟨h, _⟩; exact h
      simp [this]
  · simp [hj]

theorem shape_replace {n : Node α} {c : Nat} {y : α} (h : n.find c = some y) (x : α) : (n.replace c x).shape = n.shape := by
  cases n with
  | n4 ks => show Node.n4 _ = Node.n4 _; rw [mapKs_replace]
  | n16 ks => show Node.n16 _ = Node.n16 _; rw [mapKs_replace]
  | n48 n =>
    have h' : n.find c = some y := h
    unfold N48.find at h'
    by_cases hk : n.keys.getD c NODE48_EMPTY ≠ NODE48_EMPTY
    · rw [if_pos hk] at h'
      show Node.n48 ⟨_, _, _, _⟩ = Node.n48 ⟨_, _, _, _⟩
      rw [set_shape _ _ _ _ h']
    · rw [if_neg hk] at h'; cases h'
  | n256 n =>
    show Node.n256 ⟨_, _⟩ = Node.n256 ⟨_, _⟩
    rw [set_shape _ _ _ _ h]

/-! ### The operations in steps -/

theorem length_foldInsert (l m : List (Nat × α)) : (l.foldl (fun m p => insertKs m p.2 p.1) m).length = m.length + l.length := by
  induction l generalizing m with
  | nil => simp
  | cons p l ih => simp only [List.foldl_cons, List.length_cons]; rw [ih, length_insertKs]; omega

theorem count_foldPut (l : List (Nat × α)) (m : N48 α) : (l.foldl (fun m p => m.put (some p.2) p.1) m).count = m.count + l.length := by
  induction l generalizing m with
  | nil => simp
  | cons p l ih =>
    simp only [List.foldl_cons, List.length_cons]
    rw [ih]
    show m.count + 1 + _ = _
    omega

theorem insert_steps (n : Node α) (x : α) (c : Nat) : n.insert x c = if n.room then n.put x c else n.grown.put x c := by
  cases n with
  | n4 ks =>
    show node4Insert ks x c = _
    unfold node4Insert Node.room
    by_cases h : ks.length < 4
    · simp only [h, decide_true, if_true]; rfl
    · simp only [h, decide_false, if_false]
      unfold node16Insert
      rw [if_pos]
      · rfl
      · rw [length_foldInsert]; simp only [List.length_nil, List.length_take]; omega
  | n16 ks =>
    show node16Insert ks x c = _
    unfold node16Insert Node.room
    by_cases h : ks.length < 16
    · simp only [h, decide_true, if_true]; rfl
    · simp only [h, decide_false, if_false]
      unfold N48.insert
      rw [if_pos]
      · rfl
      · rw [count_foldPut]
        have : (N48.create : N48 α).count = 0 := rfl
        simp only [List.length_take]; omega
  | n48 n =>
    show n.insert x c = _
    unfold N48.insert Node.room
    by_cases h : n.count < 48
    · simp only [h, decide_true, if_true]; rfl
    · simp only [h, decide_false, if_false]; rfl
  | n256 n => rfl

/-- What a removal leaves of a node that is not a node4. -/
def Node.cut (n : Node α) (c : Nat) : Node α := if n.stays c then n.drop c else (n.drop c).shrunk

theorem cut16 (ks : List (Nat × α)) (c : Nat) : (Node.n16 ks).cut c = node16Erase ks c := by
  have e : node16Erase ks c = if (dropKs ks c).length > 4 then .n16 (dropKs ks c)
      else .n4 (((dropKs ks c).take 4).foldl (fun m p => insertKs m p.2 p.1) []) := by
    unfold node16Erase dropKs
    cases ks.findIdx? (fun p => p.1 == c) <;> rfl
  rw [e]
  show (if decide ((dropKs ks c).length > 4) = true then Node.n16 (dropKs ks c) else _) = _
  by_cases h : (dropKs ks c).length > 4
  · rw [if_pos h, if_pos (decide_eq_true h)]
  · rw [if_neg h, if_neg (by simpa using h)]; rfl

theorem cut48 (n : N48 α) (c : Nat) : (Node.n48 n).cut c = n.erase c := by
  show (if (decide (n.keys.getD c NODE48_EMPTY = NODE48_EMPTY) || decide (n.count - 1 > 16)) = true then Node.n48 (n.dropKey c)
    else .n16 (n.dropKey c).shrink) = _
  unfold N48.erase N48.dropKey
  by_cases h : n.keys.getD c NODE48_EMPTY = NODE48_EMPTY
  · simp only [h, decide_true, Bool.true_or, if_true]
  · by_cases h2 : n.count - 1 > 16
    · simp only [h, h2, decide_true, Bool.or_true, if_true, if_false]
    · simp only [h, h2, decide_false, Bool.or_false, Bool.false_eq_true, if_false]

theorem cut256 (n : N256 α) (c : Nat) : (Node.n256 n).cut c = n.erase c := by
  show (if decide (n.count - 1 > 48) = true then Node.n256 ⟨n.count - 1, n.children.set c none⟩
    else .n48 (N256.shrink ⟨n.count - 1, n.children.set c none⟩)) = _
  unfold N256.erase
  by_cases h2 : n.count - 1 > 48
  · simp only [h2, decide_true, if_true]
  · simp only [h2, decide_false, Bool.false_eq_true, if_false]

theorem findIdx_mapKs (f : α → β) (ks : List (Nat × α)) (c : Nat) :
    (mapKs f ks).findIdx? (fun p => p.1 == c) = ks.findIdx? (fun p => p.1 == c) := by
  unfold mapKs
  rw [List.findIdx?_map]
  rfl

theorem eraseIdx_mapKs (f : α → β) (ks : List (Nat × α)) (i : Nat) : mapKs f (ks.eraseIdx i) = (mapKs f ks).eraseIdx i := by
  unfold mapKs
  induction ks generalizing i with
  | nil => rfl
  | cons p ks ih =>
    cases i with
    | zero => rfl
    | succ i => simp only [List.eraseIdx_cons_succ, List.map_cons]; rw [ih]

theorem cut_map (f : α → β) (n : Node α) (c : Nat) : (n.cut c).map f = (n.map f).cut c := by
  cases n with
  | n4 ks => rfl
  | n16 ks =>
    show ((Node.n16 ks).cut c).map f = (Node.n16 (mapKs f ks)).cut c
    rw [cut16, cut16]
    unfold node16Erase
    rw [findIdx_mapKs]
    have key : ∀ l : List (Nat × α), Node.map f (if l.length > 4 then Node.n16 l else .n4 ((l.take 4).foldl (fun m p => insertKs m p.2 p.1) [])) =
        (if (mapKs f l).length > 4 then Node.n16 (mapKs f l) else .n4 (((mapKs f l).take 4).foldl (fun m p => insertKs m p.2 p.1) [])) := by
      intro l
      rw [mapKs_length]
      by_cases h : l.length > 4
      · rw [if_pos h, if_pos h]; rfl
      · rw [if_neg h, if_neg h]
        show Node.n4 _ = Node.n4 _
        rw [foldInsert_map, take_mapKs]; rfl
    cases ks.findIdx? (fun p => p.1 == c) with
    | none => exact key ks
    | some i =>
      simp only
      rw [← eraseIdx_mapKs]
      exact key (ks.eraseIdx i)
  | n48 n =>
    show ((Node.n48 n).cut c).map f = (Node.n48 (n.map f)).cut c
    rw [cut48, cut48]
    unfold N48.erase
    have e : (n.map f).keys.getD c NODE48_EMPTY = n.keys.getD c NODE48_EMPTY := rfl
    simp only [e]
    by_cases h : n.keys.getD c NODE48_EMPTY = NODE48_EMPTY
    · rw [if_pos h, if_pos h]; rfl
    · rw [if_neg h, if_neg h]
      have e2 : (n.map f).count = n.count := rfl
      simp only [e2]
      by_cases h2 : n.count - 1 > 16
      · rw [if_pos h2, if_pos h2]; rfl
      · rw [if_neg h2, if_neg h2]
        show Node.n16 _ = Node.n16 _
        rw [shrink48_map]; rfl
  | n256 n =>
    show ((Node.n256 n).cut c).map f = (Node.n256 (n.map f)).cut c
    rw [cut256, cut256]
    unfold N256.erase
    have e2 : (n.map f).count = n.count := rfl
    have e3 : (n.map f).children.set c none = (n.children.set c none).map (Option.map f) := by
      simp [N256.map, List.map_set]
    simp only [e2, e3]
    by_cases h2 : n.count - 1 > 48
    · rw [if_pos h2, if_pos h2]; rfl
    · rw [if_neg h2, if_neg h2]
      show Node.n48 _ = Node.n48 _
      rw [shrink256_map]; rfl

theorem shape_cut {n : Node α} {m : Node β} (h : n.shape = m.shape) (c : Nat) : (n.cut c).shape = (m.cut c).shape := by
  unfold Node.shape at *
  rw [cut_map, cut_map, h]

theorem KOk.cut {n : Node α} (h : KOk n) (h4 : n.ty ≠ .n4) {c : Nat} {y : α} (hy : n.find c = some y) :
    KOk (n.cut c) ∧ ∀ i, (n.cut c).find i = if i = c then none else n.find i := by
  cases n with
  | n4 ks => exact absurd rfl h4
  | n16 ks => rw [cut16]; exact node16Erase_ok h.1 h.2.1 h.2.2 hy
  | n48 n => rw [cut48]; exact N48.erase_ok h.1 h.2 hy
  | n256 n => rw [cut256]; exact N256.erase_ok h.1 h.2 hy

theorem drop_ty (n : Node α) (c : Nat) : (n.drop c).ty = n.ty := by cases n <;> rfl

theorem put_ty (n : Node α) (x : α) (c : Nat) : (n.put x c).ty = n.ty := by cases n <;> rfl

theorem grown_ty (n : Node α) : n.grown.ty = n.larger.ty := by cases n <;> rfl

theorem shrunk_ty (n : Node α) : n.shrunk.ty = n.smaller.ty := by cases n <;> rfl

theorem larger_ty {n : Node α} (h : n.room = false) : n.larger.ty ≠ n.ty := by
  cases n with
  | n4 ks => exact ArtTy.noConfusion
  | n16 ks => exact ArtTy.noConfusion
  | n48 n => exact ArtTy.noConfusion
  | n256 n => exact absurd h (by simp [Node.room])

theorem smaller_ty {n : Node α} (h : n.ty ≠ .n4) : n.smaller.ty ≠ n.ty := by
  cases n with
  | n4 ks => exact absurd rfl h
  | n16 ks => exact ArtTy.noConfusion
  | n48 n => exact ArtTy.noConfusion
  | n256 n => exact ArtTy.noConfusion

theorem ty_ne_leaf (n : Node α) : n.ty ≠ .leaf := by cases n <;> exact ArtTy.noConfusion

end
end CRoaring
