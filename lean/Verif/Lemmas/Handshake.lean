import Verif.Spec.Handshake
/-!
Invariants of the handshake model.
-/
set_option autoImplicit false
namespace StAsio

theorem Hk.exec_run {client : Bool} {L : Nat} {s s' : Hk} {as : List HkAct} {es : List HkEv} (h : Hk.exec client L s as = some (s', es)) : Hk.Run client L s as s' es := by
  suffices H : ∀ (as : List HkAct) (s0 s s' : Hk) (bs : List HkAct) (es0 es : List HkEv), Hk.Run client L s0 bs s es0 → Hk.exec client L s as = some (s', es) → Hk.Run client L s0 (bs ++ as) s' (es0 ++ es) from
    H as s s s' [] [] es (Hk.Run.nil s) h
  intro as
  induction as with
  | nil => intro s0 s s' bs es0 es hr h; simp [Hk.exec] at h; obtain ⟨rfl, rfl⟩ := h; simpa using hr
  | cons a as ih =>
    intro s0 s s' bs es0 es hr h
    simp only [Hk.exec, bind, Option.bind] at h
    split at h
    · cases h
    · rename_i r hs
      obtain ⟨s1, e1⟩ := r
      simp only at h
      split at h
      · cases h
      · rename_i r2 h2
        obtain ⟨s2, e2⟩ := r2
        simp at h
        obtain ⟨rfl, rfl⟩ := h
        have := ih s0 s1 s2 (bs ++ [a]) _ _ (Hk.Run.snoc _ _ _ _ _ _ _ hr hs) h2
        simpa using this

theorem Hk.run_one {client : Bool} {L : Nat} {s s' : Hk} {a : HkAct} {es : List HkEv} (h : Hk.step client L s a = some (s', es)) : Hk.Run client L s [a] s' es := by
  have := Hk.Run.snoc _ _ _ _ _ _ _ (Hk.Run.nil (client := client) (L := L) s) h
  simpa using this

theorem Hk.run_trans {client : Bool} {L : Nat} {s s1 s2 : Hk} {as bs : List HkAct} {es fs : List HkEv} (h1 : Hk.Run client L s as s1 es) (h2 : Hk.Run client L s1 bs s2 fs) :
    Hk.Run client L s (as ++ bs) s2 (es ++ fs) := by
  induction h2 with
  | nil => simpa using h1
  | snoc s2 s3 bs b fs gs _ hs ih =>
    have := Hk.Run.snoc _ _ _ _ _ _ _ ih hs
    simpa using this

theorem handshakesOk_succ (n : Nat) : handshakesOk (n + 1) = handshakesOk n ++ [.handshake n true] := by
  simp [handshakesOk, List.range_succ]

theorem linkEvents_append (a b : List HkEv) : linkEvents (a ++ b) = linkEvents a ++ linkEvents b := by simp [linkEvents]

/-- The states of an attempt, without the events. -/
structure Hk.Ok (client : Bool) (L : Nat) (s : Hk) : Prop where
  up : s.status ≠ .broken ∨ s.hs ≠ none ∨ s.connecting ∨ s.shut ≠ 0 → s.started ∨ s.closing
  cl : s.closing → s.started = false
  fd : s.status = .forceDown → s.started = false
  hsl : ∀ i, s.hs = some i → i < L ∧ s.connecting = false ∧ s.status ≠ .connected ∧ s.shut = 0
  con : s.connecting → s.hs = none ∧ s.status ≠ .connected ∧ s.shut = 0

theorem Hk.init_ok (client rc : Bool) (L : Nat) : (Hk.init rc).Ok client L := by
  constructor <;> simp [Hk.init]

theorem Hk.step_ok {client : Bool} {L : Nat} {s s' : Hk} {a : HkAct} {es : List HkEv} (hL : 1 ≤ L) (h : s.Ok client L) (hs : s.step client L a = some (s', es)) : s'.Ok client L := by
  obtain ⟨h1, h2, h3, h4, h5⟩ := h
  cases a <;> simp only [Hk.step, Hk.start, Hk.close, Hk.forceShutdown, Hk.tcpForce, Hk.userShutdown, Hk.handleHandshake] at hs <;> (repeat' split at hs) <;>
    first
    | (cases hs; done)
    | (simp only [Option.some.injEq, Prod.mk.injEq] at hs; obtain ⟨rfl, rfl⟩ := hs; constructor <;> grind)

theorem Hk.run_ok {client rc : Bool} {L : Nat} {s : Hk} {as : List HkAct} {es : List HkEv} (hL : 1 ≤ L) (hr : Hk.Run client L (Hk.init rc) as s es) : s.Ok client L := by
  generalize h0 : Hk.init rc = s0 at hr
  induction hr with
  | nil => subst h0; exact Hk.init_ok client rc L
  | snoc s1 s2 as a es fs _ hs ih => exact Hk.step_ok hL ih hs

/-- What a step can do to the link. -/
inductive Hk.Kind (L : Nat) (s s' : Hk) (es : List HkEv) : Prop where
  | quiet : linkEvents es = [] → HkEv.onConnect ∉ es → (s'.hs = s.hs) → (s'.status = .connected → s.status = .connected) → (s'.connecting → s.connecting) → (s'.started → s.started) →
      (s'.started = false ∨ s.force ≤ s'.force) → Hk.Kind L s s' es
  | down : es = [.start] ∨ es = [.onClose] ∨ es = [.onClose, .start] → s'.hs = none → s'.status ≠ .connected → (es = [.onClose] → s'.started = false ∧ s'.connecting = false) → Hk.Kind L s s' es
  | tcp : es = [.start, .tcpUp] ∨ es = [.tcpUp] → s'.hs = some 0 → s'.status ≠ .connected → Hk.Kind L s s' es
  | next (i : Nat) : es = [.handshake i true] → s.hs = some i → s'.hs = some (i + 1) → s'.status ≠ .connected → Hk.Kind L s s' es
  | done (i : Nat) : es = [.handshake i true, .onConnect] → s.hs = some i → i + 1 = L → s'.hs = none → s'.status = .connected → Hk.Kind L s s' es
  | fail (i : Nat) : es = [.handshake i false] → s.hs = some i → s'.hs = none → s'.status ≠ .connected → s'.connecting = false → 0 < s'.force → Hk.Kind L s s' es

theorem Hk.step_kind {client : Bool} {L : Nat} {s s' : Hk} {a : HkAct} {es : List HkEv} (h : s.Ok client L) (hs : s.step client L a = some (s', es)) : Hk.Kind L s s' es := by
  obtain ⟨h1, h2, h3, h4, h5⟩ := h
  cases a with
  | start =>
    simp only [Hk.step, Hk.start] at hs
    repeat' split at hs
    all_goals (simp only [Option.some.injEq, Prod.mk.injEq] at hs; obtain ⟨rfl, rfl⟩ := hs)
    · exact .quiet rfl (by simp) rfl id id id (Or.inr (Nat.le_refl _))
    · exact .down (Or.inl rfl) (by grind) (by grind) (by simp)
    · exact .tcp (Or.inl rfl) rfl (by simp)
  | connectDone =>
    simp only [Hk.step] at hs
    split at hs
    · simp only [Option.some.injEq, Prod.mk.injEq] at hs; obtain ⟨rfl, rfl⟩ := hs
      exact .tcp (Or.inr rfl) rfl (by simp)
    · cases hs
  | handshakeDone ok =>
    simp only [Hk.step] at hs
    split at hs
    · cases hs
    · rename_i i hi
      have h4 := h4 i hi
      simp only [Hk.handleHandshake, Hk.userShutdown, Hk.tcpForce] at hs
      repeat' split at hs
      all_goals (simp only [Option.some.injEq, Prod.mk.injEq] at hs; obtain ⟨rfl, rfl⟩ := hs)
      · exact .next i rfl hi rfl (by simp)
      · exact .done i rfl hi (by omega) rfl rfl
      all_goals grind [Hk.Kind.fail]
  | shutdown r =>
    simp only [Hk.step, Hk.userShutdown, Hk.tcpForce, Hk.start] at hs
    repeat' split at hs
    all_goals (simp only [Option.some.injEq, Prod.mk.injEq] at hs; obtain ⟨rfl, rfl⟩ := hs)
    all_goals first
      | (exact .quiet rfl (by simp) rfl (by simp) id id (Or.inr (by simp)))
      | (exact .quiet rfl (by simp) rfl id id id (Or.inr (by simp)))
      | (exact .down (Or.inl rfl) (by grind) (by grind) (by simp))
      | grind
  | onClose busy =>
    simp only [Hk.step, Hk.start] at hs
    repeat' split at hs
    all_goals first
      | (cases hs; done)
      | (simp only [Option.some.injEq, Prod.mk.injEq] at hs; obtain ⟨rfl, rfl⟩ := hs)
    all_goals first
      | (exact .down (Or.inr (Or.inl rfl)) (by grind) (by simp) (by grind))
      | (exact .down (Or.inr (Or.inr rfl)) (by grind) (by simp) (by simp))
      | grind
  | connectFail sni again =>
    simp only [Hk.step] at hs
    repeat' split at hs
    all_goals first
      | (cases hs; done)
      | (simp only [Option.some.injEq, Prod.mk.injEq] at hs; obtain ⟨rfl, rfl⟩ := hs)
    all_goals (refine .quiet rfl (by simp) ?_ ?_ ?_ ?_ ?_ <;> grind)
  | runSend any =>
    simp only [Hk.step] at hs
    repeat' split at hs
    all_goals first
      | (cases hs; done)
      | (simp only [Option.some.injEq, Prod.mk.injEq] at hs; obtain ⟨rfl, rfl⟩ := hs)
    all_goals exact .quiet rfl (by simp) rfl id id id (Or.inr (by simp))
  | runForce =>
    simp only [Hk.step, Hk.forceShutdown, Hk.close] at hs
    repeat' split at hs
    all_goals first
      | (cases hs; done)
      | (simp only [Option.some.injEq, Prod.mk.injEq] at hs; obtain ⟨rfl, rfl⟩ := hs)
    all_goals (refine .quiet rfl (by simp) ?_ ?_ ?_ ?_ ?_ <;> grind)
  | _ =>
    simp only [Hk.step] at hs
    repeat' split at hs
    all_goals first
      | (cases hs; done)
      | (simp only [Option.some.injEq, Prod.mk.injEq] at hs; obtain ⟨rfl, rfl⟩ := hs)
    all_goals (refine .quiet rfl (by simp) ?_ ?_ ?_ ?_ ?_ <;> grind)

/-- What the events tell about the state. -/
structure Hk.Ev (L : Nat) (s : Hk) (es : List HkEv) : Prop where
  hsE : ∀ i, s.hs = some i → JustAfter i (linkEvents es)
  conE : s.status = .connected → ∃ pre, linkEvents es = pre ++ handshakesOk L ++ [.onConnect]
  ok : ∀ e1 e2, es = e1 ++ .onConnect :: e2 → JustAfter L (linkEvents e1)
  fl : attemptFailed es = true → s.status ≠ .connected ∧ s.hs = none ∧ s.connecting = false ∧ (s.started → 0 < s.force)

/-- Splitting an appended list at an element. -/
theorem split_append {α : Type} {as bs e1 e2 : List α} {x : α} (h : as ++ bs = e1 ++ x :: e2) : (∃ r, as = e1 ++ x :: r) ∨ (∃ r, e1 = as ++ r ∧ bs = r ++ x :: e2) := by
  rw [List.append_eq_append_iff] at h
  rcases h with ⟨r, h1, h2⟩ | ⟨r, h1, h2⟩
  · exact Or.inr ⟨r, h1, h2⟩
  · cases r with
    | nil => exact Or.inr ⟨[], by simpa using h1.symm, by simpa using h2.symm⟩
    | cons y r =>
      simp at h2
      exact Or.inl ⟨r, by rw [h1, h2.1]⟩

theorem attemptFailed_append (as bs : List HkEv) : attemptFailed (as ++ bs) = bs.foldl attemptStep (attemptFailed as) := by
  simp only [attemptFailed, List.foldl_append]

theorem Hk.step_ev {client : Bool} {L : Nat} {s s' : Hk} {a : HkAct} {es fs : List HkEv} (h : s.Ok client L) (he : s.Ev L es) (hs : s.step client L a = some (s', fs)) : s'.Ev L (es ++ fs) := by
  obtain ⟨e1, e2, e3, e4⟩ := he
  have noC : HkEv.onConnect ∉ fs → ∀ f1 f2, es ++ fs = f1 ++ .onConnect :: f2 → JustAfter L (linkEvents f1) := by
    intro hn f1 f2 hf
    rcases split_append hf with ⟨r, hr⟩ | ⟨r, _, hr⟩
    · exact e3 _ _ hr
    · exact absurd (by rw [hr]; simp) hn
  cases Hk.step_kind h hs with
  | quiet h1 h2 h3 h4 h5 h6 h7 =>
    refine ⟨?_, ?_, noC h2, ?_⟩
    · intro i hi; rw [linkEvents_append, h1, List.append_nil]; exact e1 i (by rw [← h3]; exact hi)
    · intro hc; rw [linkEvents_append, h1, List.append_nil]; exact e2 (h4 hc)
    · have hx : attemptFailed (es ++ fs) = attemptFailed es := by
        rw [attemptFailed_append]
        have : ∀ x ∈ fs, x = .handOff := by
          intro x hx
          simp [linkEvents] at h1
          exact h1 x hx
        clear h1 h2 noC hs
        induction fs with
        | nil => rfl
        | cons x fs ih =>
          have h0 := this x (by simp)
          subst h0
          exact ih (fun y hy => this y (by simp [hy]))
      rw [hx]
      intro hf
      obtain ⟨g1, g2, g3, g4⟩ := e4 hf
      refine ⟨fun hc => g1 (h4 hc), by rw [h3]; exact g2, ?_, ?_⟩
      · cases hc : s'.connecting
        · rfl
        · rw [h5 hc] at g3; cases g3
      · intro hst
        have := g4 (h6 hst)
        rcases h7 with h7 | h7
        · rw [h7] at hst; cases hst
        · omega
  | down h1 h2 h3 h4 =>
    refine ⟨by simp [h2], fun hc => absurd hc h3, noC (by rcases h1 with h1 | h1 | h1 <;> simp [h1]), ?_⟩
    rw [attemptFailed_append]
    rcases h1 with h1 | h1 | h1
    · simp [h1, attemptStep]
    · obtain ⟨g1, g2⟩ := h4 h1
      simp [h1, g1, g2, h2, h3]
    · simp [h1, attemptStep]
  | tcp h1 h2 h3 =>
    refine ⟨?_, fun hc => absurd hc h3, noC (by rcases h1 with h1 | h1 <;> simp [h1]), ?_⟩
    · intro i hi
      rw [h2] at hi
      cases hi
      rcases h1 with h1 | h1
      · exact ⟨linkEvents es ++ [.start], by rw [h1, linkEvents_append]; simp [handshakesOk, linkEvents]⟩
      · exact ⟨linkEvents es, by rw [h1, linkEvents_append]; simp [handshakesOk, linkEvents]⟩
    · rw [attemptFailed_append]
      rcases h1 with h1 | h1 <;> simp [h1, attemptStep]
  | next i h1 h2 h3 h4 =>
    refine ⟨?_, fun hc => absurd hc h4, noC (by simp [h1]), ?_⟩
    · intro j hj
      rw [h3] at hj
      cases hj
      obtain ⟨pre, hp⟩ := e1 i h2
      exact ⟨pre, by rw [linkEvents_append, hp, h1, handshakesOk_succ]; simp [linkEvents]⟩
    · rw [attemptFailed_append, h1]
      simp only [List.foldl, attemptStep]
      intro hf
      have := (e4 hf).2.1
      rw [h2] at this; cases this
  | done i h1 h2 h3 h4 h5 =>
    obtain ⟨pre, hp⟩ := e1 i h2
    refine ⟨by simp [h4], ?_, ?_, ?_⟩
    · intro _
      exact ⟨pre, by rw [linkEvents_append, hp, h1, ← h3, handshakesOk_succ]; simp [linkEvents]⟩
    · intro f1 f2 hf
      rcases split_append hf with ⟨r, hr⟩ | ⟨r, h6, h7⟩
      · exact e3 _ _ hr
      · rw [h1] at h7
        have : r = [.handshake i true] := by
          cases r with
          | nil => simp at h7
          | cons x r =>
            cases r with
            | nil => simp at h7; simp [h7.1]
            | cons y r => simp at h7
        exact ⟨pre, by rw [h6, this, linkEvents_append, hp, ← h3, handshakesOk_succ]; simp [linkEvents]⟩
    · rw [attemptFailed_append, h1]
      simp only [List.foldl, attemptStep]
      intro hf
      have := (e4 hf).2.1
      rw [h2] at this; cases this
  | fail i h1 h2 h3 h4 h5 h6 =>
    refine ⟨by simp [h3], fun hc => absurd hc h4, noC (by simp [h1]), fun _ => ⟨h4, h3, h5, fun _ => h6⟩⟩

theorem Hk.run_ev {client rc : Bool} {L : Nat} {s : Hk} {as : List HkAct} {es : List HkEv} (hL : 1 ≤ L) (hr : Hk.Run client L (Hk.init rc) as s es) : s.Ev L es := by
  generalize h0 : Hk.init rc = s0 at hr
  induction hr with
  | nil => subst h0; constructor <;> simp [Hk.init, attemptFailed]
  | snoc s1 s2 as a es fs hr hs ih => subst h0; exact Hk.step_ev (Hk.run_ok hL hr) ih hs

end StAsio
