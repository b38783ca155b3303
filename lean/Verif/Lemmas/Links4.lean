import Verif.Lemmas.Links3
import Verif.Lemmas.EndToEnd2
set_option autoImplicit false
namespace StAsio

theorem Links.send_rel2 {c : Cfg} (hv : c.Valid) (hh : c.bufSize < 256 ^ c.headLen) {batch : Nat} {s s' : Links} {es fs : List LinksEv} {nd : Bool} {call : SendCall} {fits : Bool}
    (hw : (LinksAct.send call fits).Whole) {done flight waiting : List Item} {cuts : List Nat} {st : Nat}
    (h : s.Rel2 c es done flight waiting cuts st) (hs : s.step c nd true batch (.send call fits) = some (s', fs)) :
    ∃ done flight waiting cuts st, s'.Rel2 c (es ++ fs) done flight waiting cuts st := by
  have hsg : call.single = true := by cases call <;> simp_all [LinksAct.Whole, SendCall.single]
  have hrd : ∀ ps, call = .array ps → Readable ps := by
    intro ps e; subst e; exact hw
  obtain ⟨r, hr, hspec⟩ := SendCall.pack_spec hv (nd := nd) hh call hrd
  simp only [Links.step, hr] at hs
  cases r with
  | none => cases hs; exact ⟨done, flight, waiting, cuts, st, by simpa using h⟩
  | some bs =>
    simp only [hsg, if_true, Option.some.injEq, Prod.mk.injEq, true_and] at hs hspec
    obtain ⟨rfl, rfl⟩ := hs
    have hst : s.tx.step batch (.send ⟨bs.flatten, none⟩ false fits) = some (s.tx.send ⟨bs.flatten, none⟩ false fits) := rfl
    rcases Tx.send_cases s.tx ⟨bs.flatten, none⟩ fits with e | ⟨q, e, hq, hne⟩
    · rw [e]; exact ⟨done, flight, waiting, cuts, st, by simpa using h⟩
    · rw [e] at hst ⊢
      have hi := (Tx.step_inv h.inv hst).1
      have hspec : bs.flatten = wire c.headLen call.body ∧ c.headLen + call.body.length ≤ c.bufSize ∧ c.headLen + call.body.length < 256 ^ c.headLen := by
        rcases hspec with hspec | hspec
        · exact absurd hspec hne
        · exact hspec
      refine ⟨done, flight, waiting ++ [call.body], cuts, st, hi, h.bad, ?_, ?_, h.sending, h.first, h.len, h.last, h.le, ?_, ?_, ?_, ?_, ?_, ?_⟩
      · simp [lSent_append, lSent, h.all]
      · simp only; rw [hq, h.queue, hspec.1]; simp [whole]
      · intro k a b w ha hb hw
        obtain ⟨q1, q2, q3, q4⟩ := h.past k a b w ha hb hw
        have hle : done.length ≤ (lSent es).length := by rw [h.all]; simp
        simp only [List.isEmpty_cons, Bool.false_eq_true, if_false, lSent_append, lSent]
        refine ⟨q1, q2, ?_, ?_⟩
        · rw [List.take_append_of_le_length (by omega)]; exact q3
        · rw [List.drop_append_of_le_length (by omega), streamOf_append]
          exact q4.trans (List.prefix_append _ _)
      · simpa [lWritten_append, lWritten] using h.written
      · intro hd; exact h.alive hd
      · intro hd
        obtain ⟨a1, a2, a3, a4⟩ := h.dead hd
        have hle : done.length ≤ (lSent es).length := by rw [h.all]; simp
        have := h.le
        simp only [List.isEmpty_cons, Bool.false_eq_true, if_false, lSent_append, lSent]
        refine ⟨a1, ?_, a3, a4⟩
        rw [List.drop_append_of_le_length (by omega), streamOf_append]
        exact a2.trans (List.prefix_append _ _)
      · intro hup; exact h.down hup
      · intro b hb
        simp only [List.isEmpty_cons, Bool.false_eq_true, if_false, lSent_append, lSent, List.mem_append, List.mem_singleton] at hb
        rcases hb with hb | rfl
        · exact h.small b hb
        · exact hspec.2

theorem Links.run_rel2 {c : Cfg} (hv : c.Valid) (hh : c.bufSize < 256 ^ c.headLen) {batch : Nat} {nd : Bool} {s : Links} {as : List LinksAct} {es : List LinksEv}
    (h : Links.Run c nd true batch Links.init as s es) (hw : ∀ a ∈ as, a.Whole) : ∃ done flight waiting cuts st, s.Rel2 c es done flight waiting cuts st := by
  induction h with
  | nil => exact ⟨_, _, _, _, _, Links.init_rel2 c⟩
  | snoc s1 s2 as a es fs hr hs ih =>
    obtain ⟨done, flight, waiting, cuts, st, h1⟩ := ih (fun x hx => hw x (by simp [hx]))
    cases a with
    | send call fits => exact Links.send_rel2 hv hh (hw _ (by simp)) h1 hs
    | tx a => exact Links.tx_rel2 h1 hs

/-! ### the peer -/

theorem receive_stream {c : Cfg} (hv : c.Valid) (raw : Bytes) (hraw : raw.length = c.bufSize) (st cwf : Bool) (items : List Item)
    (hsm : ∀ b ∈ items, c.headLen + b.length ≤ c.bufSize ∧ c.headLen + b.length < 256 ^ c.headLen) (chunks : List Bytes)
    (h : chunks.flatten <+: streamOf c.headLen items) :
    ∃ k, receive (unpackerOps c) cwf (Unp.init raw st) chunks = some k ∧ k.log = (arrived c.headLen st items chunks.flatten.length).map .msg ∧ k.ph ≠ .stalled := by
  have hl0 := c.headLen_pos
  obtain ⟨later, hst⟩ := h
  obtain ⟨h1, r, h2⟩ := frames_arrived hl0 st _ hsm _ _ hst
  obtain ⟨k, hk, ha⟩ := receive_after (frameDec_incremental c.headLen c.bufSize hl0 st)
    (unpacker_simulates c hv st cwf) (unpacker_start c hv raw hraw st) chunks
  refine ⟨k, hk, ?_, ha.not_stalled (unpacker_simulates c hv st cwf)⟩
  unfold After frameDec at ha
  simp only [h2] at ha
  rw [ha.1, ← h1]
  simp [msgs]

theorem expected_append (hl : Nat) (st : Bool) (a b : List Item) : expected hl st (a ++ b) = expected hl st a ++ expected hl st b := by simp [expected]

theorem arrived_at_least (hl : Nat) (st : Bool) (a b : List Item) (n : Nat) (h : (streamOf hl a).length ≤ n) :
    expected hl st a <+: arrived hl st (a ++ b) n := by
  induction a generalizing n with
  | nil => simp [expected]
  | cons x a ih =>
    simp only [streamOf, List.map_cons, List.flatten_cons, List.length_append, wire, be_length] at h
    simp only [List.cons_append, arrived]
    rw [if_neg (by omega)]
    have := ih (n - (hl + x.length)) (by simp only [streamOf]; omega)
    by_cases hx : x = []
    · subst hx; simpa [expected] using this
    · have e : expected hl st (x :: a) = [if st then x else wire hl x] ++ expected hl st a := by simp [expected, hx, seen]
      rw [e, if_neg hx]
      exact (List.prefix_append_right_inj _).mpr this

theorem zip_arrived_sub (hl : Nat) (st : Bool) (chunks : List (List Bytes)) (parts : List (List Item)) :
    (List.zipWith (fun cs part => arrived hl st part (List.flatten cs).length) chunks parts).flatten.Sublist (expected hl st parts.flatten) := by
  induction parts generalizing chunks with
  | nil => simp
  | cons p parts ih =>
    cases chunks with
    | nil => simp
    | cons cs chunks =>
      simp only [List.zipWith_cons_cons, List.flatten_cons, expected_append]
      exact (arrived_prefix hl st p _).sublist.append (ih chunks)

theorem zip_arrived_all (hl : Nat) (st : Bool) (chunks : List (List Bytes)) (parts : List (List Item × List Item)) (hlen : chunks.length = parts.length)
    (h : ∀ (k : Nat) (cs : List Bytes) (p : List Item × List Item), chunks[k]? = some cs → parts[k]? = some p → (streamOf hl p.1).length ≤ cs.flatten.length) :
    (expected hl st (parts.map Prod.fst).flatten).Sublist
      (List.zipWith (fun cs part => arrived hl st part (List.flatten cs).length) chunks (parts.map (fun p => p.1 ++ p.2))).flatten := by
  induction parts generalizing chunks with
  | nil => simp [expected]
  | cons p parts ih =>
    cases chunks with
    | nil => simp at hlen
    | cons cs chunks =>
      simp only [List.map_cons, List.zipWith_cons_cons, List.flatten_cons, expected_append]
      exact (arrived_at_least hl st p.1 p.2 _ (h 0 cs p rfl rfl)).sublist.append
        (ih chunks (by simpa using hlen) (fun k cs p h1 h2 => h (k + 1) cs p (by simpa using h1) (by simpa using h2)))

theorem Links.unwritten_le {hl : Nat} {t : Tx} (hi : t.Inv) {flight : List Item} (hs : t.sendingMsgs = flight.map (whole hl)) :
    t.unwritten.length ≤ (streamOf hl flight).length := by
  have hb : ∀ x ∈ t.writes, (TxMsg.bytes x.bufs).drop x.done = (streamOf hl flight).drop x.done := by
    intro x hx; rw [(hi.wbufs x hx).1, hs, bytes_whole]
  have hown := hi.owner
  have : (if t.sending then 1 else 0) ≤ 1 := by split <;> omega
  match hws : t.writes with
  | [] => simp [Tx.unwritten, hws]
  | [x] =>
    have := hb x (by simp [hws])
    simp only [Tx.unwritten, hws, List.map_cons, List.map_nil, List.flatten_cons, List.flatten_nil, List.append_nil, this, List.length_drop]
    omega
  | x :: y :: l => rw [hws] at hown; simp only [List.length_cons] at hown; omega

/-! ### the sender alone -/

theorem Tx.resend_run {batch : Nat} (t : Tx) (es : List TxEv) : ∃ as fs, Tx.Run batch t as (t.resend es) fs := by
  unfold Tx.resend
  induction es generalizing t with
  | nil => exact ⟨[], [], Tx.Run.nil _⟩
  | cons e es ih =>
    rw [List.foldl_cons]
    cases e with
    | sendError ms =>
      obtain ⟨as, fs, h⟩ := ih (t.sendList ms true).1
      exact ⟨_, _, Tx.run_trans (Tx.run_one (a := .sendList ms true) (es := (t.sendList ms true).2) rfl) h⟩
    | _ => exact ih t

theorem Links.run_tx {c : Cfg} {nd rs : Bool} {batch : Nat} {s : Links} {as : List LinksAct} {es : List LinksEv} (h : Links.Run c nd rs batch Links.init as s es) :
    ∃ tas tes, Tx.Run batch Tx.init tas s.tx tes := by
  induction h with
  | nil => exact ⟨[], [], Tx.Run.nil _⟩
  | snoc s1 s2 as a es fs hr hs ih =>
    obtain ⟨tas, tes, h1⟩ := ih
    cases a with
    | send call fits =>
      simp only [Links.step] at hs
      split at hs
      · cases hs; exact ⟨tas, tes, h1⟩
      · cases hs; exact ⟨tas, tes, h1⟩
      · next bs _ =>
        cases hs
        cases call.single with
        | true => exact ⟨_, _, Tx.Run.snoc _ _ _ _ (.send ⟨bs.flatten, none⟩ false fits) _ _ h1 rfl⟩
        | false => exact ⟨_, _, Tx.Run.snoc _ _ _ _ (.sendList (bs.map (fun b => ⟨b, none⟩)) false) _ _ h1 rfl⟩
    | tx a =>
      simp only [Links.step] at hs
      split at hs
      · cases hs
      split at hs
      · cases hs
      rw [Option.map_eq_some_iff] at hs
      obtain ⟨⟨t, te⟩, ht, hs⟩ := hs
      simp only [Prod.mk.injEq] at hs
      obtain ⟨rfl, rfl⟩ := hs
      have h2 := Tx.Run.snoc _ _ _ _ _ _ _ h1 ht
      cases rs with
      | false => exact ⟨_, _, h2⟩
      | true =>
        obtain ⟨as', fs', h3⟩ := Tx.resend_run (batch := batch) t te
        exact ⟨_, _, Tx.run_trans h2 h3⟩

/-- Without failures the library's own steps are the same with and without a user that puts messages back. -/
theorem Links.lift {c : Cfg} {nd rs : Bool} {batch : Nat} {t t' : Tx} {bs : List TxAct} {es : List TxEv} (hb : Tx.Run batch t bs t' es)
    (hint : ∀ b ∈ bs, TxAct.Internal b) (hok : ∀ d ∈ t.dones, d.ok = true) (s : Links) (hs : s.tx = t) (hd : s.dead = false) :
    Links.Run c nd rs batch s (bs.map .tx) { s with tx := t' } (es.filterMap txLinksEv) ∧ (∀ d ∈ t'.dones, d.ok = true) ∧ ∀ e ∈ es, PlainEv e := by
  subst hs
  induction hb with
  | nil => exact ⟨Links.Run.nil _, hok, by simp⟩
  | snoc t1 t2 as a es es' hr hst ih =>
    obtain ⟨h1, h2, h3⟩ := ih (fun b hb => hint b (by simp [hb]))
    have hia := hint a (by simp)
    have hne : a ≠ .linkUp := by intro e; subst e; exact hia
    have hlk : a.linky = true := by cases a <;> simp_all [TxAct.Internal, TxAct.linky]
    have hda : Links.deadAfter s.dead a = s.dead := by
      cases a with
      | complete i ok => cases ok <;> simp_all [TxAct.Internal, Links.deadAfter]
      | _ => simp_all [Links.deadAfter]
    have hfail : (∀ d ∈ t2.dones, d.ok = true) ∧ (∀ ms, TxEv.sendError ms ∉ es') := by
      cases a with
      | handler i =>
        simp only [Tx.step, Option.bind_eq_bind] at hst
        rw [Option.bind_eq_some_iff] at hst
        obtain ⟨d, hd1, hst⟩ := hst
        split at hst
        · cases hst
        · have hdo := h2 d (List.mem_of_getElem? hd1)
          simp only [Tx.handler, hdo, if_true, Option.some.injEq] at hst
          cases hst
          exact ⟨fun x hx => h2 x (List.mem_of_mem_eraseIdx hx), by intro ms; simp [setPromises]⟩
      | complete i ok =>
        have hq := Tx.resend_quiet hst (by simp)
        cases ok with
        | false => exact absurd hia (by simp [TxAct.Internal])
        | true =>
          simp only [Tx.step, Option.bind_eq_bind] at hst
          rw [Option.bind_eq_some_iff] at hst
          obtain ⟨w, _, hst⟩ := hst
          split at hst
          · cases hst
          · cases hst
            refine ⟨?_, by simp⟩
            intro x hx
            rcases List.mem_append.mp hx with hx | hx
            · exact h2 x hx
            · simp at hx; subst hx; rfl
      | transfer i k =>
        simp only [Tx.step, Option.bind_eq_bind] at hst
        rw [Option.bind_eq_some_iff] at hst
        obtain ⟨w, _, hst⟩ := hst
        split at hst
        · cases hst
        · cases hst; exact ⟨h2, by simp⟩
      | strand =>
        simp only [Tx.step, Tx.strand] at hst
        (repeat' split at hst) <;> (cases hst; try exact ⟨h2, by simp⟩)
      | loadReady => simp only [Tx.step] at hst; split at hst <;> (cases hst; try exact ⟨h2, by simp⟩)
      | loadFlag => simp only [Tx.step] at hst; split at hst <;> (cases hst; try exact ⟨h2, by simp⟩)
      | runPosted => simp only [Tx.step] at hst; split at hst <;> (cases hst; try exact ⟨h2, by simp⟩)
      | _ => exact absurd hia (by simp [TxAct.Internal])
    have hheal : a.healthy = true := by
      cases a with
      | complete i ok => cases ok <;> simp_all [TxAct.Internal, TxAct.healthy]
      | _ => simp_all [TxAct.Internal, TxAct.healthy]
    refine ⟨?_, hfail.1, ?_⟩
    · rw [List.map_append, List.filterMap_append]
      refine Links.Run.snoc _ _ _ _ _ _ _ h1 ?_
      simp only [Links.step, hlk, Bool.true_eq_false, if_false, hd, Bool.false_and, Bool.false_eq_true, hst, Option.map_some, Tx.resend_none _ _ hfail.2, ite_self, if_neg hne]
      rw [← hd, hda]
      have : (a == TxAct.linkUp) = false := by simpa using hne
      simp [this]
    · intro e he
      rcases List.mem_append.mp he with he | he
      · exact h3 e he
      · exact (Tx.healthy_step hheal hst).2.2.2 e he

end StAsio
