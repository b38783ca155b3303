import Verif.Lemmas.Links
set_option autoImplicit false
namespace StAsio

theorem Tx.send_cases (s : Tx) (m : TxMsg) (fits : Bool) :
    s.send m false fits = (s, []) ∨
      ∃ q, s.send m false fits = ({ s with q, atReady := s.atReady + 1 }, [.accept [m] false]) ∧ q.items = s.q.items ++ [m] ∧ m.data ≠ [] := by
  unfold Tx.send
  split
  · exact Or.inl rfl
  · next hm =>
    simp only [Bool.false_eq_true, if_false]
    cases fits with
    | false => simp [Q.enqueue]
    | true => exact Or.inr ⟨{ items := s.q.items ++ [m], total := w64add s.q.total (TxMsg.sz m) }, by simp [Q.enqueue], rfl, by simpa using hm⟩

theorem Links.send_rel {c : Cfg} (hv : c.Valid) (hh : c.bufSize < 256 ^ c.headLen) {batch : Nat} {s s' : Links} {es fs : List LinksEv} {nd : Bool} {call : SendCall} {fits : Bool}
    (hw : (LinksAct.send call fits).Whole) {ps : List LinkPart} {p : LinkPart} {flight waiting : List Item}
    (h : s.Rel c es ps p flight waiting) (hs : s.step c nd false batch (.send call fits) = some (s', fs)) :
    ∃ ps p flight waiting, s'.Rel c (es ++ fs) ps p flight waiting := by
  have hsg : call.single = true := by cases call <;> simp_all [LinksAct.Whole, SendCall.single]
  have hrd : ∀ ps, call = .array ps → Readable ps := by
    intro ps e; subst e; exact hw
  obtain ⟨r, hr, hspec⟩ := SendCall.pack_spec hv (nd := nd) hh call hrd
  simp only [Links.step, hr] at hs
  cases r with
  | none => cases hs; exact ⟨ps, p, flight, waiting, by simpa using h⟩
  | some bs =>
    simp only [hsg, if_true, Option.some.injEq, Prod.mk.injEq, true_and] at hs hspec
    obtain ⟨rfl, rfl⟩ := hs
    have hst : s.tx.step batch (.send ⟨bs.flatten, none⟩ false fits) = some (s.tx.send ⟨bs.flatten, none⟩ false fits) := rfl
    rcases Tx.send_cases s.tx ⟨bs.flatten, none⟩ fits with e | ⟨q, e, hq, hne⟩
    · rw [e]; exact ⟨ps, p, flight, waiting, by simpa using h⟩
    · rw [e] at hst ⊢
      have hi := (Tx.step_inv h.inv hst).1
      have hspec : bs.flatten = wire c.headLen call.body ∧ c.headLen + call.body.length ≤ c.bufSize ∧ c.headLen + call.body.length < 256 ^ c.headLen := by
        rcases hspec with hspec | hspec
        · exact absurd hspec hne
        · exact hspec
      refine ⟨ps, p, flight, waiting ++ [call.body], hi, h.bad, ?_, ?_, h.sending, h.len, h.past, ?_, ?_, ?_, ?_, ?_, ?_⟩
      · simp [lSent_append, lSent, h.all]
      · simp only; rw [hq, h.queue, hspec.1]; simp [whole]
      · simpa [lWritten_append, lWritten] using h.written
      · simpa [lFailed_append, lFailed] using h.failed
      · intro hd; exact h.alive hd
      · intro hd; exact h.dead hd
      · intro hup; exact h.down hup
      · intro b hb
        simp only [List.isEmpty_cons, Bool.false_eq_true, if_false, lSent_append, lSent, List.mem_append, List.mem_singleton] at hb
        rcases hb with hb | rfl
        · exact h.small b hb
        · exact hspec.2

theorem Links.run_rel {c : Cfg} (hv : c.Valid) (hh : c.bufSize < 256 ^ c.headLen) {batch : Nat} {nd : Bool} {s : Links} {as : List LinksAct} {es : List LinksEv}
    (h : Links.Run c nd false batch Links.init as s es) (hw : ∀ a ∈ as, a.Whole) : ∃ ps p flight waiting, s.Rel c es ps p flight waiting := by
  induction h with
  | nil => exact ⟨_, _, _, _, Links.init_rel c⟩
  | snoc s1 s2 as a es fs hr hs ih =>
    obtain ⟨ps, p, flight, waiting, h1⟩ := ih (fun x hx => hw x (by simp [hx]))
    cases a with
    | send call fits => exact Links.send_rel hv hh (hw _ (by simp)) h1 hs
    | tx a => exact Links.tx_rel h1 hs

theorem Links.run_trans {c : Cfg} {nd rs : Bool} {batch : Nat} {s s1 s2 : Links} {as bs : List LinksAct} {es fs : List LinksEv}
    (h1 : Links.Run c nd rs batch s as s1 es) (h2 : Links.Run c nd rs batch s1 bs s2 fs) : Links.Run c nd rs batch s (as ++ bs) s2 (es ++ fs) := by
  induction h2 with
  | nil => simpa using h1
  | snoc s3 s4 bs b fs gs _ hs ih => rw [← List.append_assoc, ← List.append_assoc]; exact Links.Run.snoc _ _ _ _ _ _ _ ih hs

theorem Links.run_one {c : Cfg} {nd rs : Bool} {batch : Nat} {s s1 : Links} {a : LinksAct} {es : List LinksEv}
    (h : s.step c nd rs batch a = some (s1, es)) : Links.Run c nd rs batch s [a] s1 es := by
  have := Links.Run.snoc _ _ _ _ _ _ _ (Links.Run.nil (c := c) (nd := nd) (resend := rs) (batch := batch) s) h
  simpa using this

theorem Links.exec_run {c : Cfg} {nd rs : Bool} {batch : Nat} {s s' : Links} {as : List LinksAct} {es : List LinksEv}
    (h : Links.exec c nd rs batch s as = some (s', es)) : Links.Run c nd rs batch s as s' es := by
  induction as generalizing s es with
  | nil => simp [Links.exec] at h; obtain ⟨rfl, rfl⟩ := h; exact Links.Run.nil _
  | cons a as ih =>
    simp only [Links.exec, Option.bind_eq_bind] at h
    rw [Option.bind_eq_some_iff] at h
    obtain ⟨⟨s1, e1⟩, h1, h2⟩ := h
    rw [Option.bind_eq_some_iff] at h2
    obtain ⟨⟨s2, e2⟩, h2, h3⟩ := h2
    simp at h3
    obtain ⟨rfl, rfl⟩ := h3
    exact Links.run_trans (Links.run_one h1) (ih h2)

end StAsio
