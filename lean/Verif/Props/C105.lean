import Verif.Lemmas.CowThreads
/-
C105: copies of a copy-on-write bitmap in different threads.
-/
namespace CRoaring.Props
open CRoaring

/-- C105 fails: two threads, each with its own copy, change their copies at the same time.  The first gives its reference up before it has copied the
container; the second, now the last, takes the container over and releases the `shared_container_t` that the first is about to read. -/
theorem C105_modify_race : thRun decAtomic [(0, .modify), (1, .modify), (1, .go), (0, .go)] (thStart [1, 1]) = .oob := by decide

/-- C105 fails: one thread changes its copy while the other releases its own. -/
theorem C105_free_race : thRun decAtomic [(0, .modify), (1, .free), (1, .go), (0, .go)] (thStart [1, 1]) = .oob := by decide

/-- C105, if one thread keeps a copy and leaves it alone: whatever the others do, step by step in any order, no step touches released memory or a
container that is not shared, and the container stays as it is. -/
theorem C105_keeper_partial {refs : List Nat} {sched : List (Nat × Act)} {k n : Nat} (hk : refs[k]? = some n) (hn : 0 < n)
    (hs : ∀ e ∈ sched, e.1 ≠ k) (hb : refs.sum + sched.length < 2 ^ 32) :
    ∃ m ths, thRun decAtomic sched (thStart refs) = .ok (m, ths) ∧ m.live = true ∧ m.inner = .shared ∧
      m.counter = (ths.map Th.refs).sum ∧ ths[k]? = some ⟨n, .idle⟩ := by
  obtain ⟨s, e, h⟩ := kept_run hn sched _ (start_kept hk) hs (by rw [start_sum]; exact hb)
  exact ⟨s.1, s.2, e, h.live, h.inner, h.count, h.keeper⟩

/-- C105, if the two steps of a modification are not separated by steps of other threads: queries, copies, modifications and releases in any order
never touch released memory; and once no thread has a copy, container and `shared_container_t` have been given up, once: no step after the first
release could succeed. -/
theorem C105_unsplit_partial {refs : List Nat} {sched : List (Nat × Act)} (h0 : 0 < refs.sum) (hs : NoSplit sched)
    (hb : refs.sum + sched.length < 2 ^ 32) :
    ∃ m ths, thRun decAtomic sched (thStart refs) = .ok (m, ths) ∧
      (0 < (ths.map Th.refs).sum → m.live = true ∧ m.inner = .shared) ∧
      ((∀ th ∈ ths, th.refs = 0 ∧ th.pc = .idle) → m.live = false ∧ m.inner ≠ .shared) := by
  obtain ⟨s, e, h⟩ := noSplit_run sched _ hs (start_mode h0) (by rw [start_sum]; exact hb)
  refine ⟨s.1, s.2, e, ?_, ?_⟩
  · intro hp
    cases h with
    | alive live inner => exact ⟨live, inner⟩
    | releasing t ht live inner => exact ⟨live, inner⟩
    | dead live inner pcs =>
      exfalso
      have : ∀ ths : List Th, (∀ th ∈ ths, th = ⟨0, .idle⟩) → (ths.map Th.refs).sum = 0 := by
        intro ths
        induction ths with
        | nil => intro _; rfl
        | cons x ths ih =>
          intro hh
          have h1 := hh x (by simp)
          have h2 := ih (fun th hth => hh th (by simp [hth]))
          rw [List.map_cons, List.sum_cons, h2, h1]
      have := this s.2 pcs
      omega
  · intro hz
    cases h with
    | alive live inner count pos pcs =>
      exfalso
      have : ∀ ths : List Th, (∀ th ∈ ths, th.refs = 0 ∧ th.pc = .idle) → refsSum ths = 0 := by
        intro ths
        induction ths with
        | nil => intro _; rfl
        | cons x ths ih =>
          intro hh
          have h1 := (hh x (by simp)).1
          have h2 := ih (fun th hth => hh th (by simp [hth]))
          unfold refsSum at h2 ⊢
          rw [List.map_cons, List.sum_cons, h2, h1]
      have := this s.2 hz
      omega
    | releasing t ht =>
      have := (hz _ (List.mem_of_getElem? ht)).2
      cases this
    | dead live inner pcs => exact ⟨live, inner⟩

/-- Without atomics (`CROARING_ATOMIC_IMPL_NONE`) a shared container is never released, even in a single thread. -/
theorem C105_no_atomics_leak {refs : List Nat} {sched : List (Nat × Act)} {m : ShMem} {ths : List Th}
    (h : thRun decNone sched (thStart refs) = .ok (m, ths)) : m.live = true := by
  refine none_run sched (thStart refs) (m, ths) rfl ?_ h
  intro th hth
  obtain ⟨n, _, rfl⟩ := List.mem_map.1 hth
  exact ⟨by simp, by simp⟩

/-- Three threads, the first of which keeps its copy: the race of `C105_modify_race` does no harm. -/
example : ∃ m ths, thRun decAtomic [(1, .modify), (2, .modify), (2, .go), (1, .go)] (thStart [1, 1, 1]) = .ok (m, ths) ∧ m.live = true ∧ m.inner = .shared ∧
    m.counter = (ths.map Th.refs).sum ∧ ths[0]? = some ⟨1, .idle⟩ :=
  C105_keeper_partial (k := 0) rfl (by decide) (by decide) (by decide)

/-- Copies, queries, a modification and releases, until nothing refers to the container. -/
example : thRun decAtomic [(0, .copy), (1, .query), (0, .free), (1, .go), (1, .modify), (1, .go), (0, .free), (0, .go)] (thStart [1, 1]) =
      .ok ({ counter := 0, live := false, inner := .freed }, [⟨0, .idle⟩, ⟨0, .idle⟩]) ∧
    NoSplit [(0, .copy), (1, .query), (0, .free), (1, .go), (1, .modify), (1, .go), (0, .free), (0, .go)] := by
  refine ⟨by decide, ?_⟩
  simp [NoSplit]

/-- One bitmap and its copy, both released, without atomics. -/
example : thRun decNone [(0, .free), (0, .free), (0, .go)] (thStart [2]) = .ok ({ counter := 0, live := true, inner := .shared }, [⟨0, .idle⟩]) := by decide

end CRoaring.Props
