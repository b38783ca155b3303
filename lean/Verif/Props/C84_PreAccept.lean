import Verif.Model.PreAccept
import Verif.Props.C47_Accept
/-!
C84: a server which creates its sockets in advance (concurrent_server, config.h:1201-1214).
-/
set_option autoImplicit false
namespace StAsio

/-- Listening as begun, with what is under way. -/
def Pre.Live (num : Nat) (s : Pre) (es : List AccEv) : Prop :=
  s.acc.listening = true ∧ s.acc.isOpen = true ∧ s.acc.failed = 0 ∧ s.acc.aborted = 0 ∧ s.acc.owed = 0 ∧ outstanding es = s.acc.waiting + s.acc.succ ∧
  num ≤ s.acc.waiting + s.acc.succ + s.count ∧ 11 ≤ s.acc.waiting + s.acc.succ + s.acc.going ∧ (s.count + 10 < num → issues es = num)

/-- Not begun. -/
def Pre.Fresh (s : Pre) (es : List AccEv) : Prop := s = Pre.init ∧ es = []

theorem Pre.Run.trans {b : Bool} {num max : Nat} {p : Pre → PreAct → Bool} {s s1 s2 : Pre} {as bs : List PreAct} {es fs : List AccEv} (h1 : Pre.Run b num max p s as es s1) (h2 : Pre.Run b num max p s1 bs fs s2) :
    Pre.Run b num max p s (as ++ bs) (es ++ fs) s2 := by
  induction h2 with
  | nil => simpa using h1
  | snoc t1 t2 bs b fs gs _ hp hs ih =>
    rw [← List.append_assoc, ← List.append_assoc]
    exact .snoc _ _ _ _ _ _ _ ih hp hs

theorem Pre.exec_run {b : Bool} {num max : Nat} {p : Pre → PreAct → Bool} {as : List PreAct} {s s' : Pre} {es : List AccEv} (h : Pre.exec b num max p s as = some (es, s')) : Pre.Run b num max p s as es s' := by
  induction as generalizing s es with
  | nil => simp only [Pre.exec, Option.some.injEq, Prod.mk.injEq] at h; obtain ⟨rfl, rfl⟩ := h; exact .nil _
  | cons a as ih =>
    simp only [Pre.exec] at h
    split at h
    · rename_i hp
      cases hs : s.step b num max a with
      | none => simp [hs] at h
      | some r =>
        cases he : Pre.exec b num max p r.2 as with
        | none => simp [hs, he] at h
        | some q =>
          simp [hs, he] at h
          obtain ⟨rfl, rfl⟩ := h
          exact (Pre.Run.snoc s s r.2 [] a [] r.1 (.nil s) hp hs).trans (ih (s := r.2) (es := q.1) (by rw [he]))
    · cases h

/-- How a first step looks. -/
theorem Pre.step_fresh {b : Bool} {num max : Nat} {s : Pre} {a : PreAct} {fs : List AccEv} (hn : 0 < num) (hs : Pre.init.step b num max a = some (fs, s)) :
    a = .start ∧ s.count = 0 ∧ s.acc = ⟨true, true, num, 0, 0, 0, 0, 0, 0⟩ ∧ fs = .listen :: List.replicate num (.issue true) := by
  cases a <;> simp [Pre.step, Pre.init, Acc.init, Acc.step, Acc.startListen, Nat.ne_of_gt hn] at hs
  obtain ⟨rfl, rfl⟩ := hs; exact ⟨rfl, rfl, rfl, rfl⟩

theorem Pre.step_live {b : Bool} {num max : Nat} {s s' : Pre} {a : PreAct} {es fs : List AccEv} (h : s.Live num es) (hk : s.seen b = s.count) (hs : s.step b num max a = some (fs, s')) : s'.Live num (es ++ fs) := by
  obtain ⟨⟨lis, op, wt, su, fa, ab, go, ow, sz⟩, cnt⟩ := s
  simp only [Pre.Live] at h
  obtain ⟨rfl, rfl, rfl, rfl, rfl, h6, h7, h8, h9⟩ := h
  have hk' := hk
  cases a with
  | start => simp [Pre.step, Acc.init] at hs
  | connect =>
    simp only [Pre.step, Acc.step] at hs
    by_cases hc : 0 < wt
    · simp [hc] at hs; obtain ⟨rfl, rfl⟩ := hs
      simp only [Pre.Live, List.append_nil]
      exact ⟨trivial, trivial, trivial, trivial, trivial, by omega, by omega, by omega, h9⟩
    · simp [hc] at hs
  | handle idOk =>
    simp only [Pre.step, Acc.step] at hs
    by_cases hc : 0 < su
    · simp only [hc, if_true, Bool.true_eq_false, if_false] at hs
      by_cases hd : idOk = true ∧ sz < max
      · rw [if_pos hd] at hs
        simp at hs; obtain ⟨rfl, rfl⟩ := hs
        simp only [Pre.Live, outstanding_append, issues_append, outstanding, issues]
        exact ⟨trivial, trivial, trivial, trivial, trivial, by omega, by omega, by omega, by omega⟩
      · rw [if_neg hd] at hs
        simp at hs; obtain ⟨rfl, rfl⟩ := hs
        simp only [Pre.Live, outstanding_append, issues_append, outstanding, issues]
        exact ⟨trivial, trivial, trivial, trivial, trivial, by omega, by omega, by omega, by omega⟩
    · simp [hc] at hs
  | next =>
    simp only [Pre.step, hk', Acc.step, Acc.accept] at hs
    by_cases hc : 0 < go
    · by_cases hd : num ≤ cnt + 10
      · simp [hc, hd] at hs; obtain ⟨rfl, rfl⟩ := hs
        simp only [Pre.Live, outstanding_append, issues_append, outstanding, issues]
        exact ⟨trivial, trivial, trivial, trivial, trivial, by omega, by omega, by omega, by omega⟩
      · simp [hc, hd] at hs; obtain ⟨rfl, rfl⟩ := hs
        simp only [Pre.Live, List.append_nil]
        exact ⟨trivial, trivial, trivial, trivial, trivial, by omega, by omega, by omega, h9⟩
    · simp [hc] at hs
  | leave =>
    simp only [Pre.step, Acc.step] at hs
    by_cases hc : 0 < sz
    · simp [hc] at hs; obtain ⟨rfl, rfl⟩ := hs
      simp only [Pre.Live, outstanding_append, issues_append, outstanding, issues]
      exact ⟨trivial, trivial, trivial, trivial, trivial, by omega, by omega, by omega, by omega⟩
    · simp [hc] at hs

theorem issues_listen (n : Nat) : issues (.listen :: List.replicate n (.issue true)) = n := by
  simp only [issues]
  induction n with
  | zero => rfl
  | succ n ih => simp only [List.replicate_succ, issues, ih]

theorem outstanding_listen (n : Nat) : outstanding (.listen :: List.replicate n (.issue true)) = n := by
  simp only [outstanding, outstanding_replicate]

theorem Pre.live_run {b : Bool} {num max : Nat} {p : Pre → PreAct → Bool} (hn : 11 ≤ num) (hk : ∀ as es s, Pre.Run b num max p Pre.init as es s → s.seen b = s.count)
    {as : List PreAct} {es : List AccEv} {s : Pre} (h : Pre.Run b num max p Pre.init as es s) : (as = [] ∧ es = [] ∧ s = Pre.init) ∨ s.Live num es := by
  induction h with
  | nil => exact .inl ⟨rfl, rfl, rfl⟩
  | snoc s1 s2 as a es fs h1 hp hs ih =>
    right
    cases ih with
    | inl h =>
      obtain ⟨rfl, rfl, rfl⟩ := h
      obtain ⟨rfl, hc, ha, rfl⟩ := Pre.step_fresh (by omega) hs
      simp only [Pre.Live, hc, ha, List.nil_append, outstanding_listen, issues_listen]
      exact ⟨trivial, trivial, trivial, trivial, trivial, by omega, by omega, by omega, fun _ => trivial⟩
    | inr h => exact Pre.step_live h (hk _ _ _ h1) hs

/-- **C84** (config.h:1206, connections are counted): however connections come and links go, and however handlers interleave, as soon as the server listens at least eleven accepts are under way or about to be issued again,
and no socket beyond the first `num` is created before `num` - 10 connections were accepted. -/
theorem C84_counted {num max : Nat} (hn : 11 ≤ num) {as : List PreAct} {es : List AccEv} {s : Pre} (h : Pre.Run false num max Pre.free Pre.init as es s) (hs : as ≠ []) :
    s.acc.listening = true ∧ 11 ≤ outstanding es + s.acc.going ∧ (s.count + 10 < num → issues es = num) := by
  cases Pre.live_run hn (fun _ _ s _ => rfl) h with
  | inl h => exact absurd h.1 hs
  | inr h =>
    obtain ⟨h1, _, _, _, _, h6, _, h8, h9⟩ := h
    exact ⟨h1, by omega, h9⟩

theorem Pre.steady_seen {b : Bool} {num max : Nat} {as : List PreAct} {es : List AccEv} {s : Pre} (h : Pre.Run b num max (Pre.steady max) Pre.init as es s) : s.acc.size = s.count := by
  induction h with
  | nil => rfl
  | snoc s1 s2 as a es fs h1 hp hs ih =>
    obtain ⟨⟨lis, op, wt, su, fa, ab, go, ow, sz⟩, cnt⟩ := s1
    simp only at ih; subst ih
    cases a with
    | start =>
      simp only [Pre.step] at hs
      split at hs
      · rename_i h2
        rw [h2.1] at hs
        simp [Acc.step, Acc.init, Acc.startListen] at hs; obtain ⟨rfl, rfl⟩ := hs; exact h2.2.symm
      · cases hs
    | connect =>
      simp only [Pre.step, Acc.step] at hs
      split at hs <;> simp at hs; obtain ⟨rfl, rfl⟩ := hs; rfl
    | handle idOk =>
      simp only [Pre.steady, Bool.and_eq_true, decide_eq_true_eq] at hp
      simp only [Pre.step, Acc.step] at hs
      by_cases hc : 0 < su
      · simp only [hc, if_true, Bool.true_eq_false, if_false] at hs
        rw [if_pos hp] at hs; simp at hs; obtain ⟨rfl, rfl⟩ := hs; rfl
      · simp [hc] at hs
    | next =>
      simp only [Pre.step, Acc.step, Acc.accept] at hs
      split at hs <;> split at hs <;> simp at hs <;> obtain ⟨rfl, rfl⟩ := hs
      · simp only; split <;> rfl
      · rfl
    | leave => simp [Pre.steady] at hp

/-- **C84** (concurrent_server, size() is tested): the same, if no link ever leaves and every connection finds its place in the object pool. -/
theorem C84_size_partial {num max : Nat} (hn : 11 ≤ num) {as : List PreAct} {es : List AccEv} {s : Pre} (h : Pre.Run true num max (Pre.steady max) Pre.init as es s) (hs : as ≠ []) :
    s.acc.listening = true ∧ 11 ≤ outstanding es + s.acc.going ∧ (s.acc.size + 10 < num → issues es = num) := by
  cases Pre.live_run (b := true) hn (fun _ _ s h => Pre.steady_seen h) h with
  | inl h => exact absurd h.1 hs
  | inr h' =>
    obtain ⟨h1, _, _, _, _, h6, _, h8, h9⟩ := h'
    exact ⟨h1, by omega, by rw [Pre.steady_seen h]; exact h9⟩

theorem Pre.single_run {num max : Nat} (hn : 11 ≤ num) {as : List PreAct} {es : List AccEv} {s : Pre} (h : Pre.Run false num max Pre.single Pre.init as es s) :
    (as = [] ∧ es = [] ∧ s = Pre.init) ∨ (s.Live num es ∧ ((s.acc.going = 0 ∧ s.acc.waiting + s.acc.succ = Max.max 11 (num - s.count)) ∨
      (s.acc.going = 1 ∧ 1 ≤ s.count ∧ s.acc.waiting + s.acc.succ + 1 = Max.max 11 (num - (s.count - 1))))) := by
  induction h with
  | nil => exact .inl ⟨rfl, rfl, rfl⟩
  | snoc s1 s2 as a es fs h1 hp hs ih =>
    right
    cases ih with
    | inl h =>
      obtain ⟨rfl, rfl, rfl⟩ := h
      obtain ⟨rfl, hc, ha, rfl⟩ := Pre.step_fresh (by omega) hs
      simp only [Pre.Live, hc, ha, List.nil_append, outstanding_listen, issues_listen]
      exact ⟨⟨trivial, trivial, trivial, trivial, trivial, by omega, by omega, by omega, fun _ => trivial⟩, .inl ⟨trivial, by omega⟩⟩
    | inr h =>
      refine ⟨Pre.step_live h.1 rfl hs, ?_⟩
      obtain ⟨⟨lis, op, wt, su, fa, ab, go, ow, sz⟩, cnt⟩ := s1
      obtain ⟨hl, h⟩ := h
      simp only [Pre.Live] at hl
      obtain ⟨rfl, rfl, rfl, rfl, rfl, -⟩ := hl
      simp only at h
      cases a with
      | start => simp [Pre.step, Acc.init] at hs
      | connect =>
        simp only [Pre.step, Acc.step] at hs
        by_cases hc : 0 < wt
        · simp [hc] at hs; obtain ⟨rfl, rfl⟩ := hs
          simp only; omega
        · simp [hc] at hs
      | handle idOk =>
        simp only [Pre.single, decide_eq_true_eq] at hp
        simp only [Pre.step, Acc.step] at hs
        by_cases hc : 0 < su
        · simp only [hc, if_true, Bool.true_eq_false, if_false] at hs
          by_cases hd : idOk = true ∧ sz < max
          · rw [if_pos hd] at hs
            simp at hs; obtain ⟨rfl, rfl⟩ := hs
            simp only; omega
          · rw [if_neg hd] at hs
            simp at hs; obtain ⟨rfl, rfl⟩ := hs
            simp only; omega
        · simp [hc] at hs
      | next =>
        simp only [Pre.step, Pre.seen, Acc.step, Acc.accept] at hs
        by_cases hc : 0 < go
        · by_cases hd : num ≤ cnt + 10
          · simp [hc, hd] at hs; obtain ⟨rfl, rfl⟩ := hs
            simp only; omega
          · simp [hc, hd] at hs; obtain ⟨rfl, rfl⟩ := hs
            simp only; omega
        · simp [hc] at hs
      | leave =>
        simp only [Pre.step, Acc.step] at hs
        by_cases hc : 0 < sz
        · simp [hc] at hs; obtain ⟨rfl, rfl⟩ := hs
          exact h
        · simp [hc] at hs

/-- **C84** (exactly): with one handler at a time, between handlers the accepts under way are what is left of the first `num`, and never less than eleven. config.h:1210 promises ten: the connection that reaches
`num` - 10 already issues an accept again. -/
theorem C84_exact {num max : Nat} (hn : 11 ≤ num) {as : List PreAct} {es : List AccEv} {s : Pre} (h : Pre.Run false num max Pre.single Pre.init as es s) (hs : as ≠ []) (hg : s.acc.going = 0) :
    outstanding es = Max.max 11 (num - s.count : Nat) := by
  cases Pre.single_run hn h with
  | inl h => exact absurd h.1 hs
  | inr h =>
    obtain ⟨⟨_, _, _, _, _, h6, _⟩, h⟩ := h
    omega

theorem Pre.drain {num max : Nat} (hn : 12 ≤ num) (hm : 0 < max) (k : Nat) (hk : k ≤ num) :
    ∃ as es, Pre.Run true num max Pre.free Pre.init as es ⟨⟨true, true, num - k, 0, 0, 0, 0, 0, 0⟩, k⟩ ∧ outstanding es = (num - k : Nat) := by
  induction k with
  | zero =>
    refine ⟨[.start], _, Pre.exec_run (es := .listen :: List.replicate num (.issue true)) ?_, outstanding_listen num⟩
    simp [Pre.exec, Pre.free, Pre.step, Pre.init, Acc.init, Acc.step, Acc.startListen, show num ≠ 0 by omega]
  | succ k ih =>
    obtain ⟨as, es, h, ho⟩ := ih (by omega)
    have h2 : Pre.exec true num max Pre.free ⟨⟨true, true, num - k, 0, 0, 0, 0, 0, 0⟩, k⟩ [.connect, .handle true, .next, .leave] = some ([.got, .added, .left], ⟨⟨true, true, num - (k + 1), 0, 0, 0, 0, 0, 0⟩, k + 1⟩) := by
      have h3 : 0 < num - k := by omega
      have h4 : ¬ num ≤ 11 := by omega
      simp [Pre.exec, Pre.free, Pre.step, Pre.seen, Acc.step, h3, h4, hm]
      omega
    refine ⟨_, _, h.trans (Pre.exec_run h2), ?_⟩
    rw [outstanding_append, ho]
    simp only [outstanding]; omega

/-- **C84 is false** of concurrent_server: it stops one accept for every connection which comes while there are few links, also if links have gone since. After `num` connections one after the other, each of which leaves before the next
comes, the server still listens, no accept is under way, and nothing can ever happen again: no client is accepted any more. -/
theorem C84_fails_drained (num max : Nat) (hn : 12 ≤ num) (hm : 0 < max) :
    ∃ as es s, Pre.Run true num max Pre.free Pre.init as es s ∧ s.acc.listening = true ∧ s.acc.size = 0 ∧ outstanding es = 0 ∧ s.acc.going = 0 ∧ ∀ a, s.step true num max a = none := by
  obtain ⟨as, es, h, ho⟩ := Pre.drain hn hm num (Nat.le_refl _)
  refine ⟨as, es, _, h, rfl, rfl, by rw [ho]; simp, rfl, ?_⟩
  intro a
  cases a <;> simp [Pre.step, Acc.step, Acc.init]

theorem C84_counted_demo : ∃ as es s, Pre.Run false 12 5 Pre.single Pre.init as es s ∧ s.count = 3 ∧ s.acc.going = 0 ∧ outstanding es = 11 ∧ s.acc.size = 2 :=
  ⟨[.start, .connect, .handle true, .next, .connect, .handle true, .leave, .next, .connect, .handle true, .next], _, _, Pre.exec_run rfl, by decide, by decide, by decide, by decide⟩

theorem C84_size_demo : ∃ as es s, Pre.Run true 12 5 (Pre.steady 5) Pre.init as es s ∧ s.acc.size = 3 ∧ s.acc.going = 2 ∧ outstanding es = 9 :=
  ⟨[.start, .connect, .handle true, .connect, .next, .handle true, .connect, .handle true], _, _, Pre.exec_run rfl, by decide, by decide, by decide⟩

end StAsio
