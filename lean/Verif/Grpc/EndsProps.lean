import Verif.Grpc.Ends

/-
C107: the streams of a thread do not disturb each other.
C108: what is counted as sent and received.
-/
namespace Verif.Grpc.Ends

variable {M ZC ZD : Type}

/-! ### C107: the shared zlib objects -/

theorem squeeze_fresh {Z : Type} {zl : Zlib Z} {z z' : Z} {c c' : Comp Z} {b out : Bytes} (h : squeeze zl z c b = (z', c', some out)) (hz : z = zl.fresh) :
    z' = zl.fresh := by
  unfold squeeze at h
  cases c with
  | shared =>
    dsimp only at h
    split at h
    · cases h
    · split at h
      · cases h
      · cases h; rfl
  | own y =>
    dsimp only at h
    split at h
    · cases h
    · exact (congrArg (·.1) h).symm.trans hz

theorem encodeZ_fresh (L : Lib M ZC ZD) (z : ZC) (e : Option (Comp ZC)) (m : M) (hz : z = L.zc.fresh) (h : (encodeZ L z e m).2.2.2 = false) :
    (encodeZ L z e m).1 = L.zc.fresh := by
  unfold encodeZ at h ⊢
  cases e with
  | none => exact hz
  | some c =>
    dsimp only at h ⊢
    split at h
    · rename_i hth
      rw [if_pos hth]
      rcases hq : squeeze L.zc z c (L.ser m) with ⟨z', c', _ | out⟩
      · rw [hq] at h; cases h
      · exact squeeze_fresh hq hz
    · rename_i hth
      rw [if_neg hth]
      exact hz

theorem loopZ_fresh (L : Lib M ZC ZD) : ∀ (fuel : Nat) (z : ZD) (d : Dec (Comp ZD)) (n : Nat) (acc : List M), z = L.zd.fresh →
    (loopZ L fuel z d n acc).2.2.2 ≠ .error .io → (loopZ L fuel z d n acc).1 = L.zd.fresh
  | 0, _, _, _, _, hz, _ => hz
  | fuel + 1, z, d, n, acc, hz, h => by
    rw [loopZ] at h ⊢
    cases hs : d.size with
    | none =>
      simp only [hs] at h ⊢
      split at h
      · exact loopZ_fresh L fuel _ _ _ _ hz h
      · exact hz
    | some k =>
      simp only [hs] at h ⊢
      by_cases hk : k ≤ d.buf.length
      · rw [if_pos hk] at h ⊢
        by_cases hc : d.compressed = true
        · rw [if_pos hc] at h ⊢
          cases hd : d.decompressor with
          | none => exact hz
          | some c =>
            simp only [hd] at h ⊢
            rcases hq : squeeze L.zd z c (d.buf.take k) with ⟨z', c', _ | out⟩
            · rw [hq] at h
              exact absurd rfl h
            · have hf := squeeze_fresh hq hz
              simp only [hq] at h ⊢
              cases hp : L.parse out with
              | none => exact hf
              | some m =>
                simp only [hp] at h ⊢
                exact loopZ_fresh L fuel _ _ _ _ hf h
        · rw [if_neg hc] at h ⊢
          cases hp : L.parse (d.buf.take k) with
          | none => exact hz
          | some m =>
            simp only [hp] at h ⊢
            exact loopZ_fresh L fuel _ _ _ _ hz h
      · rw [if_neg hk]
        exact hz

/-- A result that tells that the zlib library failed. -/
def Failed : EOut M → Prop
  | .sent _ f => f = true
  | .received (.error .io) => True
  | _ => False

theorem call_send (L : Lib M ZC ZD) (zc : ZC) (zd : ZD) (e : End ZC ZD) (i : Nat) (m : M) : e.call L zc zd (.send i m) =
    ((encodeZ L zc e.enc m).1, zd, { e with enc := (encodeZ L zc e.enc m).2.1 }, ⟨(encodeZ L zc e.enc m).2.2.1.length, (L.ser m).length + 5, 1, 0, 0⟩,
      .sent (encodeZ L zc e.enc m).2.2.1 (encodeZ L zc e.enc m).2.2.2) := rfl

theorem call_receive (L : Lib M ZC ZD) (zc : ZC) (zd : ZD) (e : End ZC ZD) (i : Nat) (data : Bytes) : e.call L zc zd (.receive i data) =
    (zc, (decodeZ L zd e.dec data).1, { e with dec := (decodeZ L zd e.dec data).2.1 }, ⟨0, 0, 0, data.length, (decodeZ L zd e.dec data).2.2.1⟩,
      .received (decodeZ L zd e.dec data).2.2.2) := rfl

theorem call_fresh (L : Lib M ZC ZD) (e : End ZC ZD) (op : EOp M) (h : ¬ Failed (e.call L L.zc.fresh L.zd.fresh op).2.2.2.2) :
    (e.call L L.zc.fresh L.zd.fresh op).1 = L.zc.fresh ∧ (e.call L L.zc.fresh L.zd.fresh op).2.1 = L.zd.fresh := by
  cases op with
  | send i m =>
    rw [call_send] at h ⊢
    refine ⟨encodeZ_fresh L _ _ _ rfl ?_, rfl⟩
    cases hb : (encodeZ L L.zc.fresh e.enc m).2.2.2 with
    | false => rfl
    | true => exact absurd hb h
  | receive i data =>
    rw [call_receive] at h ⊢
    refine ⟨rfl, loopZ_fresh L _ _ _ _ _ rfl ?_⟩
    intro hr
    apply h
    show Failed (.received (decodeZ L L.zd.fresh e.dec data).2.2.2)
    unfold decodeZ
    rw [hr]
    trivial
  | _ => exact ⟨rfl, rfl⟩

/-- The results of the calls on one stream. -/
def outsOf (i : Nat) (ops : List (EOp M)) (outs : List (EOut M)) : List (EOut M) :=
  ((ops.zip outs).filter fun x => x.1.stream = some i).map (·.2)

/-- The calls that remain if only stream `i` is used. -/
def only (i : Nat) (ops : List (EOp M)) : List (EOp M) := ops.filter fun op => op.stream = none ∨ op.stream = some i

theorem step_on (L : Lib M ZC ZD) (t : Thread ZC ZD) (op : EOp M) (i : Nat) (h : op.stream = some i) : t.step L op = t.on L i op := by
  cases op <;> cases h <;> rfl

theorem End.step_call (L : Lib M ZC ZD) (zc : ZC) (zd : ZD) (e : End ZC ZD) (op : EOp M) :
    (e.step L zc zd op).1 = (e.call L zc zd op).1 ∧ (e.step L zc zd op).2.1 = (e.call L zc zd op).2.1 ∧ (e.step L zc zd op).2.2.2.2 = (e.call L zc zd op).2.2.2.2 := by
  cases op <;> exact ⟨rfl, rfl, rfl⟩

theorem step_call (L : Lib M ZC ZD) (t : Thread ZC ZD) (op : EOp M) (i : Nat) (h : op.stream = some i) :
    (t.ends[i]? = none ∧ t.step L op = (t, .unit)) ∨
    ∃ e, t.ends[i]? = some e ∧ ∃ e', (t.step L op).1.ends = t.ends.set i e' ∧
      (t.step L op).1.zc = (e.call L t.zc t.zd op).1 ∧ (t.step L op).1.zd = (e.call L t.zc t.zd op).2.1 ∧ (t.step L op).2 = (e.call L t.zc t.zd op).2.2.2.2 := by
  rw [step_on L t op i h]
  unfold Thread.on
  cases he : t.ends[i]? with
  | none => exact Or.inl ⟨rfl, rfl⟩
  | some e =>
    obtain ⟨h1, h2, h3⟩ := End.step_call L t.zc t.zd e op
    exact Or.inr ⟨e, rfl, _, rfl, h1, h2, h3⟩

/-- Two threads with clean objects that agree on stream `i`. -/
structure Alike (L : Lib M ZC ZD) (i : Nat) (t u : Thread ZC ZD) : Prop where
  tc : t.zc = L.zc.fresh
  td : t.zd = L.zd.fresh
  uc : u.zc = L.zc.fresh
  ud : u.zd = L.zd.fresh
  len : t.ends.length = u.ends.length
  at_ : t.ends[i]? = u.ends[i]?

theorem step_same (L : Lib M ZC ZD) {i : Nat} {t u : Thread ZC ZD} (h : Alike L i t u) (op : EOp M) (hi : op.stream = some i) :
    (t.step L op).2 = (u.step L op).2 ∧ (t.step L op).1.ends[i]? = (u.step L op).1.ends[i]? ∧
    (t.step L op).1.ends.length = (u.step L op).1.ends.length ∧ (t.step L op).1.zc = (u.step L op).1.zc ∧ (t.step L op).1.zd = (u.step L op).1.zd := by
  rw [step_on L t op i hi, step_on L u op i hi]
  unfold Thread.on
  rw [← h.at_]
  cases he : t.ends[i]? with
  | none =>
    dsimp only
    rw [he, ← h.at_, he, h.tc, h.uc, h.td, h.ud, h.len]
    exact ⟨rfl, rfl, rfl, rfl, rfl⟩
  | some e =>
    have h1 := (List.getElem?_eq_some_iff.1 he).1
    have h2 := (List.getElem?_eq_some_iff.1 (h.at_.symm.trans he)).1
    dsimp only
    rw [h.tc, h.uc, h.td, h.ud, List.length_set, List.length_set, h.len, List.getElem?_set_self h1, List.getElem?_set_self h2]
    exact ⟨rfl, rfl, rfl, rfl, rfl⟩

theorem step_clean (L : Lib M ZC ZD) {t : Thread ZC ZD} (hc : t.zc = L.zc.fresh) (hd : t.zd = L.zd.fresh) (op : EOp M) (h : ¬ Failed (t.step L op).2) :
    (t.step L op).1.zc = L.zc.fresh ∧ (t.step L op).1.zd = L.zd.fresh := by
  cases hs : op.stream with
  | none =>
    cases op with
    | new => exact ⟨hc, hd⟩
    | _ => cases hs
  | some i =>
    rcases step_call L t op i hs with ⟨_, he⟩ | ⟨e, _, e', _, h2, h3, h4⟩
    · rw [he]; exact ⟨hc, hd⟩
    · rw [h2, h3]
      rw [h4] at h
      rw [hc, hd] at h ⊢
      exact call_fresh L e op h

theorem run_cons (L : Lib M ZC ZD) (t : Thread ZC ZD) (op : EOp M) (ops : List (EOp M)) :
    t.run L (op :: ops) = (((t.step L op).1.run L ops).1, (t.step L op).2 :: ((t.step L op).1.run L ops).2) := rfl

theorem isolated (L : Lib M ZC ZD) (i : Nat) : ∀ (ops : List (EOp M)) (t u : Thread ZC ZD), Alike L i t u → (∀ o ∈ (t.run L ops).2, ¬ Failed o) →
    outsOf i ops (t.run L ops).2 = outsOf i (only i ops) (u.run L (only i ops)).2
  | [], _, _, _, _ => rfl
  | op :: ops, t, u, h, hf => by
    rw [run_cons] at hf ⊢
    have hf1 := hf _ (List.mem_cons_self ..)
    have hf2 : ∀ o ∈ ((t.step L op).1.run L ops).2, ¬ Failed o := fun o ho => hf o (List.mem_cons_of_mem _ ho)
    obtain ⟨k1, k2⟩ := step_clean L h.tc h.td op hf1
    cases hs : op.stream with
    | none =>
      have ho : only i (op :: ops) = op :: only i ops := by simp [only, hs]
      have ha : Alike L i (t.step L op).1 (u.step L op).1 := by
        cases op with
        | new a b =>
          refine ⟨h.tc, h.td, h.uc, h.ud, by simp [Thread.step, h.len], ?_⟩
          show (t.ends ++ _)[i]? = (u.ends ++ _)[i]?
          have ha := h.at_
          have hl := h.len
          rcases Nat.lt_or_ge i t.ends.length with hi | hi
          · rw [List.getElem?_append_left hi, List.getElem?_append_left (hl ▸ hi), ha]
          · rw [List.getElem?_append_right hi, List.getElem?_append_right (hl ▸ hi), hl]
        | _ => cases hs
      have ih := isolated L i ops _ _ ha hf2
      rw [ho, run_cons]
      simp only [outsOf, List.zip_cons_cons, List.filter_cons, hs, reduceCtorEq, decide_false, Bool.false_eq_true, if_false]
      exact ih
    | some j =>
      by_cases hj : j = i
      · subst hj
        have ho : only j (op :: ops) = op :: only j ops := by simp [only, hs]
        obtain ⟨s1, s2, s3, s4, s5⟩ := step_same L h op hs
        have ih := isolated L j ops _ _ ⟨k1, k2, s4 ▸ k1, s5 ▸ k2, s3, s2⟩ hf2
        rw [ho, run_cons]
        simp only [outsOf, List.zip_cons_cons, List.filter_cons, hs, decide_true, if_true, List.map_cons]
        rw [s1]
        exact congrArg _ ih
      · have ho : only i (op :: ops) = only i ops := by simp [only, hs, hj]
        have ha : Alike L i (t.step L op).1 u := by
          rcases step_call L t op j hs with ⟨_, he⟩ | ⟨e, _, e', h1, _⟩
          · rw [he]; exact h
          · exact ⟨k1, k2, h.uc, h.ud, by rw [h1, List.length_set]; exact h.len, by rw [h1, List.getElem?_set_ne hj]; exact h.at_⟩
        have ih := isolated L i ops _ _ ha hf2
        rw [ho]
        have hne : (some j = some i) ↔ False := by simp [hj]
        simp only [outsOf, List.zip_cons_cons, List.filter_cons, hs, hne, decide_false, Bool.false_eq_true, if_false]
        exact ih

/-- **C107, as far as it holds.** For every zlib library and every history of a thread with any number of streams, stateless or not, in which no call of
the library failed: each stream gives the results that it would give alone. -/
theorem C107_isolated_partial (L : Lib M ZC ZD) (ops : List (EOp M)) (hf : ∀ o ∈ ((Thread.new L).run L ops).2, ¬ Failed o) (i : Nat) :
    outsOf i ops ((Thread.new L).run L ops).2 = outsOf i (only i ops) ((Thread.new L).run L (only i ops)).2 :=
  isolated L i ops _ _ ⟨rfl, rfl, rfl, rfl, rfl, rfl⟩ hf

/-- How the library behaves after an error (zlib: "Z_DATA_ERROR" until `inflateReset`): the object refuses everything. -/
structure Sticky {Z : Type} (zl : Zlib Z) (Bad : Z → Prop) : Prop where
  write : ∀ z b, (zl.write z b).2 = false → Bad (zl.write z b).1
  finish : ∀ z, (zl.finish z).2 = none → Bad (zl.finish z).1
  stays : ∀ z b, Bad z → (zl.write z b).2 = false

theorem squeeze_bad {Z : Type} {zl : Zlib Z} {Bad : Z → Prop} (hs : Sticky zl Bad) {z : Z} (hz : Bad z) (c : Comp Z) (b : Bytes) :
    Bad (squeeze zl z c b).1 ∧ (c = .shared → (squeeze zl z c b).2.2 = none ∧ (squeeze zl z c b).2.1 = .shared) := by
  cases c with
  | own y =>
    refine ⟨?_, nofun⟩
    unfold squeeze
    dsimp only
    split
    · exact hz
    · exact hz
  | shared =>
    have h1 := hs.stays z b hz
    have h2 := hs.write z b h1
    unfold squeeze
    dsimp only
    rcases hq : zl.write z b with ⟨z', w⟩
    rw [hq] at h1 h2
    dsimp only at h1 h2
    subst h1
    exact ⟨h2, fun _ => ⟨rfl, rfl⟩⟩

theorem loopZ_bad (L : Lib M ZC ZD) {Bad : ZD → Prop} (hs : Sticky L.zd Bad) : ∀ (fuel : Nat) (z : ZD) (d : Dec (Comp ZD)) (n : Nat) (acc : List M), Bad z →
    Bad (loopZ L fuel z d n acc).1
  | 0, _, _, _, _, hz => hz
  | fuel + 1, z, d, n, acc, hz => by
    rw [loopZ]
    cases hsz : d.size with
    | none =>
      simp only
      split
      · exact loopZ_bad L hs fuel _ _ _ _ hz
      · exact hz
    | some k =>
      simp only
      by_cases hk : k ≤ d.buf.length
      · rw [if_pos hk]
        by_cases hc : d.compressed = true
        · rw [if_pos hc]
          cases hd : d.decompressor with
          | none => exact hz
          | some c =>
            simp only
            have hb := (squeeze_bad hs hz c (d.buf.take k)).1
            rcases hq : squeeze L.zd z c (d.buf.take k) with ⟨z', c', _ | out⟩
            · rw [hq] at hb; exact hb
            · rw [hq] at hb
              simp only
              cases hp : L.parse out with
              | none => exact hb
              | some m => exact loopZ_bad L hs fuel _ _ _ _ hb
        · rw [if_neg hc]
          cases hp : L.parse (d.buf.take k) with
          | none => exact hz
          | some m => exact loopZ_bad L hs fuel _ _ _ _ hz
      · rw [if_neg hk]
        exact hz

/-- A decoder whose decompressor is shared keeps it, and an error of the library leaves the shared object bad. -/
theorem loopZ_shared (L : Lib M ZC ZD) {Bad : ZD → Prop} (hs : Sticky L.zd Bad) : ∀ (fuel : Nat) (z : ZD) (d : Dec (Comp ZD)) (n : Nat) (acc : List M),
    d.decompressor = some .shared → (loopZ L fuel z d n acc).2.2.2 = .error .io → Bad (loopZ L fuel z d n acc).1
  | 0, _, _, _, _, _, h => by cases h
  | fuel + 1, z, d, n, acc, hd, h => by
    rw [loopZ] at h ⊢
    cases hsz : d.size with
    | none =>
      simp only [hsz] at h ⊢
      split at h
      · exact loopZ_shared L hs fuel _ _ _ _ hd h
      · cases h
    | some k =>
      simp only [hsz] at h ⊢
      by_cases hk : k ≤ d.buf.length
      · rw [if_pos hk] at h ⊢
        by_cases hc : d.compressed = true
        · rw [if_pos hc] at h ⊢
          simp only [hd] at h ⊢
          have hsq : squeeze L.zd z .shared (d.buf.take k) = match L.zd.write z (d.buf.take k) with
              | (z', false) => (z', .shared, none)
              | (z', true) => match L.zd.finish z' with
                | (z'', none) => (z'', .shared, none)
                | (_, some out) => (L.zd.fresh, .shared, some out) := rfl
          rcases hw : L.zd.write z (d.buf.take k) with ⟨z', w⟩
          cases w with
          | false =>
            have := hs.write z (d.buf.take k) (by rw [hw])
            rw [hw] at hsq this
            rw [hsq]
            exact this
          | true =>
            rw [hw] at hsq
            dsimp only at hsq
            rcases hfi : L.zd.finish z' with ⟨z'', _ | out⟩
            · have := hs.finish z' (by rw [hfi])
              rw [hfi] at hsq this
              rw [hsq]
              exact this
            · rw [hfi] at hsq
              dsimp only at hsq
              rw [hsq] at h ⊢
              dsimp only at h ⊢
              cases hp : L.parse out with
              | none => rw [hp] at h; cases h
              | some m =>
                simp only [hp] at h ⊢
                exact loopZ_shared L hs fuel _ _ _ _ rfl h
        · rw [if_neg hc] at h ⊢
          cases hp : L.parse (d.buf.take k) with
          | none => rw [hp] at h; cases h
          | some m =>
            simp only [hp] at h ⊢
            exact loopZ_shared L hs fuel _ _ _ _ hd h
      · rw [if_neg hk] at h
        cases h

theorem step_bad (L : Lib M ZC ZD) {Bad : ZD → Prop} (hs : Sticky L.zd Bad) {t : Thread ZC ZD} (ht : Bad t.zd) (op : EOp M) : Bad (t.step L op).1.zd := by
  cases hst : op.stream with
  | none =>
    cases op with
    | new => exact ht
    | _ => cases hst
  | some i =>
    rcases step_call L t op i hst with ⟨_, he⟩ | ⟨e, _, e', _, _, h3, _⟩
    · rw [he]; exact ht
    · rw [h3]
      cases op with
      | receive i data => rw [call_receive]; exact loopZ_bad L hs _ _ _ _ _ ht
      | _ => exact ht

theorem run_bad (L : Lib M ZC ZD) {Bad : ZD → Prop} (hs : Sticky L.zd Bad) : ∀ (ops : List (EOp M)) {t : Thread ZC ZD}, Bad t.zd → Bad (t.run L ops).1.zd
  | [], _, h => h
  | op :: ops, _, h => run_bad L hs ops (step_bad L hs h op)

theorem run_append (L : Lib M ZC ZD) : ∀ (a b : List (EOp M)) (t : Thread ZC ZD),
    t.run L (a ++ b) = (((t.run L a).1.run L b).1, (t.run L a).2 ++ ((t.run L a).1.run L b).2)
  | [], _, _ => rfl
  | op :: a, b, t => by rw [List.cons_append, run_cons, run_append L a b, run_cons]; rfl

/-- Nothing but the result of the first frame of a new stream on a bad thread. -/
theorem receive_bad (L : Lib M ZC ZD) {Bad : ZD → Prop} (hs : Sticky L.zd Bad) {z : ZD} (hz : Bad z) (pay rest : Bytes) (hp : pay.length < 4294967296) :
    (decodeZ L z (Dec.init (some .shared)) (1 :: putU32 pay.length ++ pay ++ rest)).2.2.2 = .error .io := by
  have hsq := (squeeze_bad hs hz .shared pay).2 rfl
  unfold decodeZ
  simp only [Dec.init, putU32, List.cons_append, List.nil_append]
  rw [loopZ]
  dsimp only
  rw [getU32_putU32 hp, loopZ]
  dsimp only
  rw [if_pos (by simp)]
  have : (1 == 1) = true := rfl
  rw [this, if_pos rfl, List.take_left' rfl]
  rcases hq : squeeze L.zd z .shared pay with ⟨z', c', r⟩
  rw [hq] at hsq
  obtain ⟨h1, h2⟩ := hsq
  dsimp only at h1 h2
  subst h1
  rfl

/-- **C107 violated.** One compressed message that cannot be decompressed, on any stateless stream, and the first compressed message of every stream
opened after it on the same thread is an error, whatever it holds and however many calls later: the object of the thread is given a new state only after a
success (lib.rs:395-398), and the library refuses everything after an error. -/
theorem C107_poisoned_violated (L : Lib M ZC ZD) {Bad : ZD → Prop} (hs : Sticky L.zd Bad) (ops ops' : List (EOp M)) (i : Nat) (data : Bytes)
    (e : End ZC ZD) (he : ((Thread.new L).run L ops).1.ends[i]? = some e) (hsh : e.dec.decompressor = some .shared)
    (herr : ((((Thread.new L).run L ops).1).step L (.receive i data)).2 = .received (.error .io))
    (comp : Option Bool) (pay rest : Bytes) (hp : pay.length < 4294967296) :
    let t := ((Thread.new L).run L (ops ++ [.receive i data] ++ ops' ++ [.new comp (some true)])).1
    (t.step L (.receive (t.ends.length - 1) (1 :: putU32 pay.length ++ pay ++ rest))).2 = .received (.error .io) := by
  intro t
  have hb : Bad t.zd := by
    show Bad ((Thread.new L).run L (ops ++ [.receive i data] ++ ops' ++ [.new comp (some true)])).1.zd
    rw [run_append, run_append]
    refine run_bad L hs _ (run_bad L hs _ ?_)
    rw [run_append]
    show Bad (((((Thread.new L).run L ops).1).step L (.receive i data)).1).zd
    rcases step_call L ((Thread.new L).run L ops).1 (.receive i data) i rfl with ⟨hn, _⟩ | ⟨e1, h0, _, _, _, h3, h4⟩
    · rw [he] at hn; cases hn
    · rw [he] at h0
      cases h0
      rw [h4, call_receive] at herr
      rw [h3, call_receive]
      have hr := EOut.received.inj herr
      unfold decodeZ at hr
      exact loopZ_shared L hs _ _ _ _ _ hsh hr
  obtain ⟨l, hl⟩ : ∃ l, t.ends = l ++ [End.new L comp (some true)] := by
    refine ⟨((Thread.new L).run L (ops ++ [.receive i data] ++ ops')).1.ends, ?_⟩
    show ((Thread.new L).run L (ops ++ [.receive i data] ++ ops' ++ [.new comp (some true)])).1.ends = _
    rw [run_append]
    rfl
  have hg : t.ends[t.ends.length - 1]? = some (End.new L comp (some true)) := by
    rw [hl]; simp
  rcases step_call L t (.receive (t.ends.length - 1) (1 :: putU32 pay.length ++ pay ++ rest)) _ rfl with ⟨hn, _⟩ | ⟨e1, h0, _, _, _, h3, h4⟩
  · rw [hg] at hn; cases hn
  · rw [hg] at h0
    cases h0
    rw [h4, call_receive]
    exact congrArg _ (receive_bad L hs hb pay rest hp)

/-! ### C108: the counters -/

/-- One of the five counters. -/
structure Proj where
  d : Five Deferred → Deferred
  n : Five Nat → Nat
  inc : ∀ c k, d (c.incBy k).1 = ((d c).incBy (n k)).1 ∧ n (c.incBy k).2 = ((d c).incBy (n k)).2
  ini : ∀ c, d c.initialize.1 = (d c).initialize.1 ∧ n c.initialize.2 = (d c).initialize.2
  plus : ∀ a b, n (a.plus b) = n a + n b
  zero : d ⟨.new, .new, .new, .new, .new⟩ = .new ∧ n ⟨0, 0, 0, 0, 0⟩ = 0

def pTx : Proj := ⟨(·.tx), (·.tx), fun _ _ => ⟨rfl, rfl⟩, fun _ => ⟨rfl, rfl⟩, fun _ _ => rfl, ⟨rfl, rfl⟩⟩
def pTxu : Proj := ⟨(·.txu), (·.txu), fun _ _ => ⟨rfl, rfl⟩, fun _ => ⟨rfl, rfl⟩, fun _ _ => rfl, ⟨rfl, rfl⟩⟩
def pMsgs : Proj := ⟨(·.msgs), (·.msgs), fun _ _ => ⟨rfl, rfl⟩, fun _ => ⟨rfl, rfl⟩, fun _ _ => rfl, ⟨rfl, rfl⟩⟩
def pRx : Proj := ⟨(·.rx), (·.rx), fun _ _ => ⟨rfl, rfl⟩, fun _ => ⟨rfl, rfl⟩, fun _ _ => rfl, ⟨rfl, rfl⟩⟩
def pRxd : Proj := ⟨(·.rxd), (·.rxd), fun _ _ => ⟨rfl, rfl⟩, fun _ => ⟨rfl, rfl⟩, fun _ _ => rfl, ⟨rfl, rfl⟩⟩

/-- What a call adds to the counters of its stream. -/
def incOf (L : Lib M ZC ZD) (t : Thread ZC ZD) (op : EOp M) : Five Nat :=
  match op.stream.bind (t.ends[·]?) with
  | some e => (e.call L t.zc t.zd op).2.2.2.1
  | none => ⟨0, 0, 0, 0, 0⟩

/-- The counter of stream `i`. -/
def cntOf (P : Proj) (t : Thread ZC ZD) (i : Nat) : Nat := ((t.ends[i]?).map fun e => (P.d e.cnt).count).getD 0

/-- Whether it is registered. -/
def liveOf (P : Proj) (t : Thread ZC ZD) (i : Nat) : Bool := ((t.ends[i]?).map fun e => (P.d e.cnt).live).getD false

theorem getElem?_snoc_ne {α : Type} (l : List α) (a : α) {i : Nat} (h : i ≠ l.length) : (l ++ [a])[i]? = l[i]? := by
  rcases Nat.lt_or_ge i l.length with hi | hi
  · exact List.getElem?_append_left hi
  · rw [List.getElem?_append_right hi, List.getElem?_eq_none (l := l) hi]
    have : i - l.length = (i - l.length - 1) + 1 := by omega
    rw [this]
    rfl

theorem End.step_cnt (P : Proj) (L : Lib M ZC ZD) (zc : ZC) (zd : ZD) (e : End ZC ZD) (op : EOp M) :
    (P.d (e.step L zc zd op).2.2.1.cnt).count = (P.d e.cnt).count + P.n (e.call L zc zd op).2.2.2.1 ∧
    ((P.d (e.step L zc zd op).2.2.1.cnt).live = true ↔ (P.d e.cnt).live = true ∨ ∃ i, op = .register i) ∧
    P.n (e.step L zc zd op).2.2.2.1 = (match op with
      | .register _ => (P.d e.cnt).count
      | _ => if (P.d e.cnt).live then P.n (e.call L zc zd op).2.2.2.1 else 0) := by
  cases op with
  | register i =>
    have h := P.ini e.cnt
    refine ⟨?_, ?_, ?_⟩
    · show (P.d e.cnt.initialize.1).count = (P.d e.cnt).count + P.n ⟨0, 0, 0, 0, 0⟩
      rw [h.1, P.zero.2]
      rfl
    · show (P.d e.cnt.initialize.1).live = true ↔ _
      rw [h.1]
      exact ⟨fun _ => Or.inr ⟨i, rfl⟩, fun _ => rfl⟩
    · exact h.2
  | new a b =>
    have h := P.inc e.cnt ⟨0, 0, 0, 0, 0⟩
    exact ⟨congrArg Deferred.count h.1, by
      show (P.d (e.cnt.incBy ⟨0, 0, 0, 0, 0⟩).1).live = true ↔ _
      rw [h.1]; exact ⟨Or.inl, fun h => h.elim id fun ⟨_, h⟩ => by cases h⟩, h.2⟩
  | send i m =>
    have h := P.inc e.cnt (e.call L zc zd (.send i m)).2.2.2.1
    exact ⟨congrArg Deferred.count h.1, by
      show (P.d (e.cnt.incBy (e.call L zc zd (.send i m)).2.2.2.1).1).live = true ↔ _
      rw [h.1]; exact ⟨Or.inl, fun h => h.elim id fun ⟨_, h⟩ => by cases h⟩, h.2⟩
  | sendRaw i m =>
    have h := P.inc e.cnt (e.call L zc zd (.sendRaw i m)).2.2.2.1
    exact ⟨congrArg Deferred.count h.1, by
      show (P.d (e.cnt.incBy (e.call L zc zd (.sendRaw i m)).2.2.2.1).1).live = true ↔ _
      rw [h.1]; exact ⟨Or.inl, fun h => h.elim id fun ⟨_, h⟩ => by cases h⟩, h.2⟩
  | receive i m =>
    have h := P.inc e.cnt (e.call L zc zd (.receive i m)).2.2.2.1
    exact ⟨congrArg Deferred.count h.1, by
      show (P.d (e.cnt.incBy (e.call L zc zd (.receive i m)).2.2.2.1).1).live = true ↔ _
      rw [h.1]; exact ⟨Or.inl, fun h => h.elim id fun ⟨_, h⟩ => by cases h⟩, h.2⟩

/-- The effect of a call on the counters. -/
theorem step_counts (P : Proj) (L : Lib M ZC ZD) (t : Thread ZC ZD) (op : EOp M) :
    (∀ i, cntOf P (t.step L op).1 i = cntOf P t i + if op.stream = some i then P.n (incOf L t op) else 0) ∧
    (∀ i, liveOf P (t.step L op).1 i = true ↔ liveOf P t i = true ∨ op = .register i ∧ i < t.ends.length) ∧
    P.n (t.step L op).1.reg = P.n t.reg + (match op with
      | .register i => cntOf P t i
      | _ => match op.stream with
        | some i => if liveOf P t i then P.n (incOf L t op) else 0
        | none => 0) := by
  cases hs : op.stream with
  | none =>
    cases op with
    | new a b =>
      refine ⟨fun i => ?_, fun i => ?_, rfl⟩
      · rw [if_neg nofun, Nat.add_zero]
        show ((t.ends ++ [End.new L a b])[i]?.map _).getD 0 = _
        by_cases hi : i = t.ends.length
        · subst hi
          unfold cntOf
          simp only [List.getElem?_concat_length, Option.map_some, Option.getD_some, List.getElem?_eq_none (Nat.le_refl _), Option.map_none, Option.getD_none]
          rw [End.new, P.zero.1]
          rfl
        · rw [getElem?_snoc_ne _ _ hi]
          rfl
      · show ((t.ends ++ [End.new L a b])[i]?.map _).getD false = true ↔ _
        by_cases hi : i = t.ends.length
        · subst hi
          unfold liveOf
          simp only [List.getElem?_concat_length, Option.map_some, Option.getD_some, List.getElem?_eq_none (Nat.le_refl _), Option.map_none, Option.getD_none]
          rw [End.new, P.zero.1]
          simp [Deferred.new]
        · rw [getElem?_snoc_ne _ _ hi]
          exact ⟨Or.inl, fun h => h.elim id fun ⟨h, _⟩ => by cases h⟩
    | _ => cases hs
  | some j =>
    have hreg : ∀ i, op = .register i → i = j := by rintro i rfl; cases hs; rfl
    rw [step_on L t op j hs]
    unfold Thread.on incOf
    rw [hs, Option.bind_some]
    cases he : t.ends[j]? with
    | none =>
      refine ⟨fun i => ?_, fun i => ?_, ?_⟩
      · dsimp only
        rw [P.zero.2]
        split <;> rfl
      · refine ⟨Or.inl, fun h => h.elim id fun ⟨h, hl⟩ => ?_⟩
        rw [hreg i h] at hl
        rw [List.getElem?_eq_none_iff] at he
        omega
      · dsimp only
        rw [P.zero.2]
        have : cntOf P t j = 0 := by unfold cntOf; rw [he]; rfl
        cases op with
        | register i => cases hs; exact (Nat.add_zero _ ▸ congrArg (P.n t.reg + ·) this.symm)
        | _ => simp
    | some e =>
      have hl := (List.getElem?_eq_some_iff.1 he).1
      obtain ⟨c1, c2, c3⟩ := End.step_cnt P L t.zc t.zd e op
      have ecnt : cntOf P t j = (P.d e.cnt).count := by unfold cntOf; rw [he]; rfl
      have elive : liveOf P t j = (P.d e.cnt).live := by unfold liveOf; rw [he]; rfl
      dsimp only
      refine ⟨fun i => ?_, fun i => ?_, ?_⟩
      · by_cases hi : j = i
        · subst hi
          rw [if_pos rfl, ecnt, ← c1]
          unfold cntOf
          dsimp only
          rw [List.getElem?_set_self hl]
          rfl
        · rw [if_neg (by simpa using hi), Nat.add_zero]
          unfold cntOf
          dsimp only
          rw [List.getElem?_set_ne hi]
      · by_cases hi : j = i
        · subst hi
          rw [elive]
          unfold liveOf
          dsimp only
          rw [List.getElem?_set_self hl]
          refine c2.trans (or_congr Iff.rfl ⟨fun ⟨i, h⟩ => ⟨by rw [h, hreg i h], hl⟩, fun h => ⟨j, h.1⟩⟩)
        · unfold liveOf
          dsimp only
          rw [List.getElem?_set_ne hi]
          exact ⟨Or.inl, fun h => h.elim id fun ⟨h, _⟩ => absurd (hreg i h).symm hi⟩
      · rw [P.plus, c3]
        cases op with
        | register i => cases hs; exact congrArg (P.n t.reg + ·) ecnt.symm
        | new => cases hs
        | send => rw [elive]
        | sendRaw => rw [elive]
        | receive => rw [elive]

/-- The streams registered by the calls, given that `n` streams were opened before. -/
def registered : Nat → List (EOp M) → List Nat
  | _, [] => []
  | n, .new .. :: ops => registered (n + 1) ops
  | n, .register i :: ops => if i < n then i :: registered n ops else registered n ops
  | n, _ :: ops => registered n ops

theorem sum_add_at (l : List Nat) (hl : l.Nodup) (f g : Nat → Nat) (i n : Nat) (h : ∀ j, g j = f j + if j = i then n else 0) :
    (l.map g).sum = (l.map f).sum + if i ∈ l then n else 0 := by
  induction l with
  | nil => rfl
  | cons a l ih =>
    obtain ⟨h1, h2⟩ := List.nodup_cons.1 hl
    rw [List.map_cons, List.sum_cons, List.map_cons, List.sum_cons, ih h2, h a]
    by_cases ha : a = i
    · subst ha
      simp [h1]
      omega
    · have : i ≠ a := fun e => ha e.symm
      simp [ha, this]
      omega

/-- The registered counter is the sum of those of the registered streams. -/
structure RInv (P : Proj) (t : Thread ZC ZD) (regs : List Nat) : Prop where
  reg : P.n t.reg = (regs.map (cntOf P t)).sum
  live : ∀ i, liveOf P t i = true ↔ i ∈ regs
  nodup : regs.Nodup

theorem step_len (L : Lib M ZC ZD) (t : Thread ZC ZD) (op : EOp M) :
    (t.step L op).1.ends.length = match op with | .new .. => t.ends.length + 1 | _ => t.ends.length := by
  cases hs : op.stream with
  | none =>
    cases op with
    | new => simp [Thread.step]
    | _ => cases hs
  | some i =>
    have : (t.step L op).1.ends.length = t.ends.length := by
      rcases step_call L t op i hs with ⟨_, he⟩ | ⟨_, _, e', h1, _⟩
      · rw [he]
      · rw [h1, List.length_set]
    rw [this]
    cases op with
    | new => cases hs
    | _ => rfl

theorem registered_cons (n : Nat) (op : EOp M) (ops : List (EOp M)) :
    registered n (op :: ops) = (match op with | .register i => if i < n then [i] else [] | _ => []) ++
      registered (match op with | .new .. => n + 1 | _ => n) ops := by
  cases op <;> simp only [registered, List.nil_append]
  split <;> rfl

theorem RInv.plain {P : Proj} {t u : Thread ZC ZD} {regs : List Nat} (h : RInv P t regs) {i n : Nat}
    (c : ∀ j, cntOf P u j = cntOf P t j + if some i = some j then n else 0) (l : ∀ j, liveOf P u j = true ↔ liveOf P t j = true)
    (r : P.n u.reg = P.n t.reg + if liveOf P t i then n else 0) : RInv P u regs := by
  refine ⟨?_, fun j => (l j).trans (h.live j), h.nodup⟩
  rw [r, h.reg, sum_add_at regs h.nodup (cntOf P t) (cntOf P u) i n (fun j => by rw [c j]; simp only [Option.some.injEq, eq_comm])]
  simp only [h.live i]

theorem RInv.run (P : Proj) (L : Lib M ZC ZD) : ∀ (ops : List (EOp M)) {t : Thread ZC ZD} {regs : List Nat}, RInv P t regs →
    (regs ++ registered t.ends.length ops).Nodup → RInv P (t.run L ops).1 (regs ++ registered t.ends.length ops)
  | [], t, regs, h, _ => by
    rw [registered, List.append_nil]
    exact h
  | op :: ops, t, regs, h, hn => by
    obtain ⟨s1, s2, s3⟩ := step_counts P L t op
    rw [run_cons]
    rw [registered_cons, ← List.append_assoc] at hn ⊢
    have hlen := step_len L t op
    rw [← hlen] at hn ⊢
    refine RInv.run P L ops ?_ hn
    have hn1 := (List.nodup_append.1 hn).1
    have nor : (∀ i, op ≠ .register i) → ∀ j, liveOf P (t.step L op).1 j = true ↔ liveOf P t j = true := by
      intro hno j
      rw [s2 j]
      constructor
      · rintro (h | ⟨h, _⟩)
        · exact h
        · exact absurd h (hno j)
      · exact Or.inl
    cases op with
    | register i =>
      dsimp only at hn1 ⊢
      by_cases hi : i < t.ends.length
      · rw [if_pos hi] at hn1 ⊢
        refine ⟨?_, fun j => ?_, hn1⟩
        · dsimp only at s3
          rw [s3, h.reg, List.map_append, List.sum_append]
          have : ∀ j, cntOf P (t.step L (.register i)).1 j = cntOf P t j := by
            intro j
            rw [s1 j]
            have : P.n (incOf L t (.register i)) = 0 := by
              unfold incOf
              split
              · exact P.zero.2
              · exact P.zero.2
            rw [this]
            split <;> rfl
          rw [List.map_congr_left (fun j _ => this j)]
          simp [this]
        · rw [s2 j, h.live j]
          constructor
          · rintro (h | ⟨h, _⟩)
            · exact List.mem_append_left _ h
            · cases h; simp
          · intro h
            rcases List.mem_append.1 h with h | h
            · exact Or.inl h
            · rw [List.mem_singleton] at h
              subst h
              exact Or.inr ⟨rfl, hi⟩
      · rw [if_neg hi, List.append_nil] at hn1 ⊢
        have : t.step L (.register i) = (t, .unit) := by
          rcases step_call L t (.register i) i rfl with ⟨_, h⟩ | ⟨e, h, _⟩
          · exact h
          · exact absurd (List.getElem?_eq_some_iff.1 h).1 hi
        rw [this]
        exact h
    | new a b =>
      dsimp only at hn1 ⊢
      rw [List.append_nil] at hn1 ⊢
      refine ⟨?_, fun j => (nor nofun j).trans (h.live j), hn1⟩
      rw [s3, h.reg]
      exact congrArg List.sum (List.map_congr_left fun j _ => ((s1 j).trans (by rw [if_neg nofun]; rfl)).symm)
    | send i m =>
      dsimp only at hn1 ⊢
      rw [List.append_nil] at hn1 ⊢
      exact h.plain s1 (nor nofun) s3
    | sendRaw i m =>
      dsimp only at hn1 ⊢
      rw [List.append_nil] at hn1 ⊢
      exact h.plain s1 (nor nofun) s3
    | receive i m =>
      dsimp only at hn1 ⊢
      rw [List.append_nil] at hn1 ⊢
      exact h.plain s1 (nor nofun) s3

/-! What the callers see. -/

/-- The bytes handed to the network. -/
def seenTx : EOp M × EOut M → Nat
  | (_, .sent b _) => b.length
  | _ => 0

/-- Their size without compression. -/
def seenTxu (ser : M → Bytes) : EOp M × EOut M → Nat
  | (.send _ m, .sent ..) => 5 + (ser m).length
  | (.sendRaw _ b, .sent ..) => b.length
  | _ => 0

/-- Messages sent. -/
def seenMsgs : EOp M × EOut M → Nat
  | (_, .sent ..) => 1
  | _ => 0

/-- Bytes received. -/
def seenRx : EOp M × EOut M → Nat
  | (.receive _ data, .received _) => data.length
  | _ => 0

/-- The sum of what is seen on stream `i`. -/
def total (seen : EOp M × EOut M → Nat) (i : Nat) (ops : List (EOp M)) (outs : List (EOut M)) : Nat :=
  (((ops.zip outs).filter fun x => x.1.stream = some i).map seen).sum

theorem total_cons (seen : EOp M × EOut M → Nat) (i : Nat) (op : EOp M) (out : EOut M) (ops : List (EOp M)) (outs : List (EOut M)) :
    total seen i (op :: ops) (out :: outs) = (if op.stream = some i then seen (op, out) else 0) + total seen i ops outs := by
  unfold total
  rw [List.zip_cons_cons, List.filter_cons]
  by_cases h : op.stream = some i
  · rw [if_pos h, if_pos (by simpa using h), List.map_cons, List.sum_cons]
  · rw [if_neg h, if_neg (by simpa using h), Nat.zero_add]

theorem run_counts (P : Proj) (L : Lib M ZC ZD) (seen : EOp M × EOut M → Nat)
    (hs : ∀ t op i, op.stream = some i → P.n (incOf L t op) = seen (op, (t.step L op).2)) (i : Nat) :
    ∀ (ops : List (EOp M)) (t : Thread ZC ZD), cntOf P (t.run L ops).1 i = cntOf P t i + total seen i ops (t.run L ops).2
  | [], _ => rfl
  | op :: ops, t => by
    rw [run_cons, run_counts P L seen hs i ops, (step_counts P L t op).1 i, total_cons]
    by_cases h : op.stream = some i
    · rw [if_pos h, if_pos h, hs t op i h, Nat.add_assoc]
    · rw [if_neg h, if_neg h, Nat.zero_add, Nat.add_zero]

theorem incOf_seen (P : Proj) (L : Lib M ZC ZD) (seen : EOp M × EOut M → Nat) (h0 : ∀ op, seen (op, .unit) = 0)
    (hc : ∀ (e : End ZC ZD) zc zd op, P.n (e.call L zc zd op).2.2.2.1 = seen (op, (e.call L zc zd op).2.2.2.2)) (t : Thread ZC ZD) (op : EOp M) (i : Nat)
    (h : op.stream = some i) : P.n (incOf L t op) = seen (op, (t.step L op).2) := by
  rcases step_call L t op i h with ⟨hn, he⟩ | ⟨e, he, _, _, _, _, h4⟩
  · rw [he, h0]
    unfold incOf
    rw [h, Option.bind_some, hn]
    exact P.zero.2
  · rw [h4, ← hc]
    unfold incOf
    rw [h, Option.bind_some, he]

theorem hc_tx (L : Lib M ZC ZD) (e : End ZC ZD) (zc : ZC) (zd : ZD) (op : EOp M) :
    pTx.n (e.call L zc zd op).2.2.2.1 = seenTx (op, (e.call L zc zd op).2.2.2.2) := by cases op <;> rfl

theorem hc_txu (L : Lib M ZC ZD) (e : End ZC ZD) (zc : ZC) (zd : ZD) (op : EOp M) :
    pTxu.n (e.call L zc zd op).2.2.2.1 = seenTxu L.ser (op, (e.call L zc zd op).2.2.2.2) := by
  cases op with
  | send i m => exact Nat.add_comm _ _
  | _ => rfl

theorem hc_msgs (L : Lib M ZC ZD) (e : End ZC ZD) (zc : ZC) (zd : ZD) (op : EOp M) :
    pMsgs.n (e.call L zc zd op).2.2.2.1 = seenMsgs (op, (e.call L zc zd op).2.2.2.2) := by cases op <;> rfl

theorem hc_rx (L : Lib M ZC ZD) (e : End ZC ZD) (zc : ZC) (zd : ZD) (op : EOp M) :
    pRx.n (e.call L zc zd op).2.2.2.1 = seenRx (op, (e.call L zc zd op).2.2.2.2) := by cases op <;> rfl

theorem seenTxu_unit (ser : M → Bytes) (op : EOp M) : seenTxu ser (op, .unit) = 0 := by cases op <;> rfl
theorem seenRx_unit (op : EOp M) : seenRx (op, .unit) = 0 := by cases op <;> rfl

theorem cnt_new (P : Proj) (L : Lib M ZC ZD) (i : Nat) : cntOf P (Thread.new L) i = 0 := by simp [cntOf, Thread.new]

theorem cntOf_some (P : Proj) {t : Thread ZC ZD} {i : Nat} {e : End ZC ZD} (h : t.ends[i]? = some e) : cntOf P t i = (P.d e.cnt).count := by
  unfold cntOf; rw [h]; rfl

/-- **C108, one end.** For every zlib library and every history of a thread's streams: `bandwidth_stats` of a stream are the bytes handed to the network,
their size without compression, and the bytes received. -/
theorem C108_stream (L : Lib M ZC ZD) (ops : List (EOp M)) (i : Nat) (e : End ZC ZD) (he : ((Thread.new L).run L ops).1.ends[i]? = some e) :
    let outs := ((Thread.new L).run L ops).2
    e.cnt.tx.count = total seenTx i ops outs ∧ e.cnt.txu.count = total (seenTxu L.ser) i ops outs ∧
    e.cnt.msgs.count = total seenMsgs i ops outs ∧ e.cnt.rx.count = total seenRx i ops outs := by
  intro outs
  have key : ∀ (P : Proj) (seen : EOp M × EOut M → Nat), (∀ op, seen (op, .unit) = 0) →
      (∀ (e : End ZC ZD) zc zd op, P.n (e.call L zc zd op).2.2.2.1 = seen (op, (e.call L zc zd op).2.2.2.2)) → (P.d e.cnt).count = total seen i ops outs := by
    intro P seen h0 hc
    have := run_counts P L seen (incOf_seen P L seen h0 hc) i ops (Thread.new L)
    rw [cnt_new, Nat.zero_add, cntOf_some P he] at this
    exact this
  exact ⟨key pTx seenTx (fun _ => rfl) (hc_tx L), key pTxu (seenTxu L.ser) (seenTxu_unit _) (hc_txu L), key pMsgs seenMsgs (fun _ => rfl) (hc_msgs L),
    key pRx seenRx seenRx_unit (hc_rx L)⟩

/-- **C108, registered counters.** If no stream is registered twice, each registered counter is the sum over the registered streams, of what they counted
before and after they were registered. -/
theorem C108_registered (L : Lib M ZC ZD) (ops : List (EOp M)) (hn : (registered 0 ops).Nodup) :
    let t := ((Thread.new L).run L ops).1
    let outs := ((Thread.new L).run L ops).2
    t.reg.tx = ((registered 0 ops).map fun i => total seenTx i ops outs).sum ∧
    t.reg.txu = ((registered 0 ops).map fun i => total (seenTxu L.ser) i ops outs).sum ∧
    t.reg.msgs = ((registered 0 ops).map fun i => total seenMsgs i ops outs).sum ∧
    t.reg.rx = ((registered 0 ops).map fun i => total seenRx i ops outs).sum ∧
    t.reg.rxd = ((registered 0 ops).map fun i => (t.ends[i]?.map fun e => e.cnt.rxd.count).getD 0).sum := by
  intro t outs
  have inv : ∀ P : Proj, RInv P t (registered 0 ops) := by
    intro P
    have h0 : RInv P (Thread.new L) [] := by
      refine ⟨P.zero.2, fun i => ?_, List.nodup_nil⟩
      simp [liveOf, Thread.new]
    exact RInv.run P L ops h0 hn
  have key : ∀ (P : Proj) (seen : EOp M × EOut M → Nat), (∀ op, seen (op, .unit) = 0) →
      (∀ (e : End ZC ZD) zc zd op, P.n (e.call L zc zd op).2.2.2.1 = seen (op, (e.call L zc zd op).2.2.2.2)) →
      P.n t.reg = ((registered 0 ops).map fun i => total seen i ops outs).sum := by
    intro P seen h0 hc
    rw [(inv P).reg]
    refine congrArg List.sum (List.map_congr_left fun i _ => ?_)
    rw [run_counts P L seen (incOf_seen P L seen h0 hc) i ops (Thread.new L), cnt_new, Nat.zero_add]
  exact ⟨key pTx seenTx (fun _ => rfl) (hc_tx L), key pTxu (seenTxu L.ser) (seenTxu_unit _) (hc_txu L), key pMsgs seenMsgs (fun _ => rfl) (hc_msgs L),
    key pRx seenRx seenRx_unit (hc_rx L), (inv pRxd).reg⟩

theorem loopZ_counted (L : Lib M ZC ZD) : ∀ (fuel : Nat) (z : ZD) (d : Dec (Comp ZD)) (n : Nat) (acc : List M),
    ∃ bs : List Bytes, (loopZ L fuel z d n acc).2.2.1 = n + (bs.map List.length).sum ∧
    match (loopZ L fuel z d n acc).2.2.2 with
    | .ok ms => ∃ ms', ms = acc ++ ms' ∧ bs.map L.parse = ms'.map some
    | .error .protobuf => ∃ good last, bs = good ++ [last] ∧ (∀ b ∈ good, (L.parse b).isSome) ∧ L.parse last = none
    | .error _ => ∀ b ∈ bs, (L.parse b).isSome
  | 0, _, _, _, acc => ⟨[], rfl, [], (List.append_nil acc).symm, rfl⟩
  | fuel + 1, z, d, n, acc => by
    have stop : ∃ bs : List Bytes, n = n + (bs.map List.length).sum ∧ ∃ ms', acc = acc ++ ms' ∧ bs.map L.parse = ms'.map some :=
      ⟨[], rfl, [], (List.append_nil acc).symm, rfl⟩
    have next : ∀ (z' : ZD) (d' : Dec (Comp ZD)) (out : Bytes) (m : M), L.parse out = some m →
        ∃ bs : List Bytes, (loopZ L fuel z' d' (n + out.length) (acc ++ [m])).2.2.1 = n + (bs.map List.length).sum ∧
        match (loopZ L fuel z' d' (n + out.length) (acc ++ [m])).2.2.2 with
        | .ok ms => ∃ ms', ms = acc ++ ms' ∧ bs.map L.parse = ms'.map some
        | .error .protobuf => ∃ good last, bs = good ++ [last] ∧ (∀ b ∈ good, (L.parse b).isSome) ∧ L.parse last = none
        | .error _ => ∀ b ∈ bs, (L.parse b).isSome := by
      intro z' d' out m hm
      obtain ⟨bs, h1, h2⟩ := loopZ_counted L fuel z' d' (n + out.length) (acc ++ [m])
      refine ⟨out :: bs, by rw [h1, List.map_cons, List.sum_cons, Nat.add_assoc], ?_⟩
      generalize (loopZ L fuel z' d' (n + out.length) (acc ++ [m])).2.2.2 = r at h2
      cases r with
      | ok ms =>
        obtain ⟨ms', rfl, h3⟩ := h2
        exact ⟨m :: ms', by rw [List.append_assoc]; rfl, by rw [List.map_cons, List.map_cons, hm, h3]⟩
      | error e =>
        cases e with
        | protobuf =>
          obtain ⟨good, last, rfl, h3, h4⟩ := h2
          refine ⟨out :: good, last, rfl, ?_, h4⟩
          intro b hb
          rcases List.mem_cons.1 hb with rfl | hb
          · rw [hm]; rfl
          · exact h3 b hb
        | protocol | io =>
          intro b hb
          rcases List.mem_cons.1 hb with rfl | hb
          · rw [hm]; rfl
          · exact h2 b hb
    unfold loopZ
    split
    · split
      · exact loopZ_counted L fuel ..
      · exact stop
    · split
      · split
        · split
          · exact ⟨[], rfl, nofun⟩
          · split
            · exact ⟨[], rfl, nofun⟩
            · split
              · rename_i hp
                exact ⟨[_], by simp, [], _, rfl, nofun, hp⟩
              · rename_i hp
                exact next _ _ _ _ hp
        · split
          · rename_i hp
            exact ⟨[_], by simp, [], _, rfl, nofun, hp⟩
          · rename_i hp
            exact next _ _ _ _ hp
      · exact stop

/-- The payloads handed to the parser in a call with the result given. -/
def Handed (parse : Bytes → Option M) (bs : List Bytes) : Except DErr (List M) → Prop
  | .ok ms => bs.map parse = ms.map some
  | .error .protobuf => ∃ good last, bs = good ++ [last] ∧ (∀ b ∈ good, (parse b).isSome) ∧ parse last = none
  | .error _ => ∀ b ∈ bs, (parse b).isSome

/-- **C108, the decompressed bytes.** For every zlib library, decoder and data: what a call adds to `rx_decompressed` is the size of the payloads that were
handed to the parser, one for each message returned, and the one that the parser refused. -/
theorem C108_decompressed (L : Lib M ZC ZD) (t : Thread ZC ZD) (i : Nat) (data : Bytes) (e e' : End ZC ZD) (r : Except DErr (List M))
    (he : t.ends[i]? = some e) (he' : (t.step L (.receive i data)).1.ends[i]? = some e') (hr : (t.step L (.receive i data)).2 = .received r) :
    ∃ bs : List Bytes, e'.cnt.rxd.count = e.cnt.rxd.count + (bs.map List.length).sum ∧ Handed L.parse bs r := by
  have hl := (List.getElem?_eq_some_iff.1 he).1
  have hs : t.step L (.receive i data) =
      (⟨t.zc, (decodeZ L t.zd e.dec data).1, t.ends.set i (e.step L t.zc t.zd (.receive i data)).2.2.1, t.reg.plus (e.step L t.zc t.zd (.receive i data)).2.2.2.1⟩,
        .received (decodeZ L t.zd e.dec data).2.2.2) := by
    show t.on L i _ = _
    unfold Thread.on
    rw [he]
    rfl
  rw [hs] at he' hr
  rw [List.getElem?_set_self hl] at he'
  cases EOut.received.inj hr
  cases he'
  obtain ⟨bs, h1, h2⟩ := loopZ_counted L (2 * (e.dec.buf ++ data).length + 2) t.zd { e.dec with buf := e.dec.buf ++ data } 0 []
  refine ⟨bs, ?_, ?_⟩
  · show e.cnt.rxd.count + (decodeZ L t.zd e.dec data).2.2.1 = _
    rw [show (decodeZ L t.zd e.dec data).2.2.1 = 0 + (bs.map List.length).sum from h1, Nat.zero_add]
  · change match (decodeZ L t.zd e.dec data).2.2.2 with
      | .ok ms => ∃ ms', ms = [] ++ ms' ∧ bs.map L.parse = ms'.map some
      | .error .protobuf => ∃ good last, bs = good ++ [last] ∧ (∀ b ∈ good, (L.parse b).isSome) ∧ L.parse last = none
      | .error _ => ∀ b ∈ bs, (L.parse b).isSome at h2
    split at h2
    · obtain ⟨ms', h3, h4⟩ := h2
      rw [List.nil_append] at h3
      rename_i heq
      rw [heq, h3]
      exact h4
    · rename_i heq
      rw [heq]
      exact h2
    · rename_i x hx heq
      rw [heq]
      cases x with
      | protobuf => exact absurd rfl hx
      | _ => exact h2

/-! Both ends. -/

/-- Compression as C18 sees it, with the object of the thread in the state; the messages are their serialisations. -/
def cz (L : Lib M ZC ZD) : Codec Bytes (ZC × Comp ZC) (ZD × Comp ZD) where
  ser := id
  parse := some
  comp := fun s b => (squeeze L.zc s.1 s.2 b).2.2.map fun out => (((squeeze L.zc s.1 s.2 b).1, (squeeze L.zc s.1 s.2 b).2.1), out)
  decomp := fun s b => (squeeze L.zd s.1 s.2 b).2.2.map fun out => (((squeeze L.zd s.1 s.2 b).1, (squeeze L.zd s.1 s.2 b).2.1), out)

/-- What is assumed of the libraries: the parser undoes the serialiser, a decompressor undoes what a compressor made out of a whole message, and one that has
seen what a compressor produced so far undoes the next flush. -/
structure Inverse (L : Lib M ZC ZD) (R : ZC → ZD → Prop) : Prop where
  parse : ∀ m, L.parse (L.ser m) = some m
  whole : ∀ b out, (L.zc.write L.zc.fresh b).2 = true → (L.zc.finish (L.zc.write L.zc.fresh b).1).2 = some out →
    (L.zd.write L.zd.fresh out).2 = true ∧ (L.zd.finish (L.zd.write L.zd.fresh out).1).2 = some b
  fresh : R L.zc.fresh L.zd.fresh
  flush : ∀ y w b out, R y w → (L.zc.write y b).2 = true → (L.zc.flush (L.zc.write y b).1).2 = some out →
    (L.zd.write w out).2 = true ∧ (L.zd.flush (L.zd.write w out).1).2 = some b ∧
    R (L.zc.flush (L.zc.write y b).1).1 (L.zd.flush (L.zd.write w out).1).1

/-- The two ends of a stream fit together. -/
def Fit (L : Lib M ZC ZD) (R : ZC → ZD → Prop) (s : ZC × Comp ZC) (d : ZD × Comp ZD) : Prop :=
  (s = (L.zc.fresh, .shared) ∧ d = (L.zd.fresh, .shared)) ∨ ∃ y w, s.2 = .own y ∧ d.2 = .own w ∧ R y w

theorem squeeze_own {Z : Type} (zl : Zlib Z) (z y : Z) (b out : Bytes) :
    (squeeze zl z (.own y) b).2.2 = some out ↔ (zl.write y b).2 = true ∧ (zl.flush (zl.write y b).1).2 = some out := by
  unfold squeeze
  dsimp only
  split
  · rename_i heq; rw [heq]; simp
  · rename_i heq; rw [heq]; simp

theorem squeeze_own_state {Z : Type} (zl : Zlib Z) (z y : Z) (b out : Bytes) (h : (squeeze zl z (.own y) b).2.2 = some out) :
    (squeeze zl z (.own y) b).2.1 = .own (zl.flush (zl.write y b).1).1 := by
  unfold squeeze at h ⊢
  dsimp only at h ⊢
  split
  · rename_i heq; rw [heq] at h; cases h
  · rename_i heq; rw [heq]

theorem squeeze_shared {Z : Type} (zl : Zlib Z) (z : Z) (b out : Bytes) :
    (squeeze zl z .shared b).2.2 = some out ↔ (zl.write z b).2 = true ∧ (zl.finish (zl.write z b).1).2 = some out := by
  unfold squeeze
  dsimp only
  split
  · rename_i heq; rw [heq]; simp
  · rename_i heq
    split
    · rename_i h2; rw [heq, h2]; simp
    · rename_i h2; rw [heq, h2]; simp

theorem squeeze_shared_state {Z : Type} (zl : Zlib Z) (z : Z) (b out : Bytes) (h : (squeeze zl z .shared b).2.2 = some out) :
    (squeeze zl z .shared b).1 = zl.fresh ∧ (squeeze zl z .shared b).2.1 = .shared := by
  unfold squeeze at h ⊢
  dsimp only at h ⊢
  split
  · rename_i heq; rw [heq] at h; cases h
  · rename_i heq
    rw [heq] at h
    dsimp only at h
    split
    · rename_i h2; rw [h2] at h; cases h
    · exact ⟨rfl, rfl⟩

theorem cz_good {L : Lib M ZC ZD} {R : ZC → ZD → Prop} (h : Inverse L R) : (cz L).Good (Fit L R) := by
  refine ⟨fun _ => rfl, ?_⟩
  rintro ⟨z, c⟩ ⟨w, dc⟩ b s' b' hf hc
  unfold cz at hc ⊢
  dsimp only at hc ⊢
  rw [Option.map_eq_some_iff] at hc
  obtain ⟨out, ho, hc⟩ := hc
  obtain ⟨hc1, hc2⟩ := Prod.mk.inj hc
  subst hc1
  subst hc2
  rcases hf with ⟨h1, h2⟩ | ⟨y, v, h1, h2, hr⟩
  · cases h1
    cases h2
    have hd := (squeeze_shared L.zd L.zd.fresh out b).2 (h.whole b out ((squeeze_shared ..).1 ho).1 ((squeeze_shared ..).1 ho).2)
    refine ⟨_, by rw [hd]; rfl, Or.inl ⟨?_, ?_⟩⟩
    · exact Prod.ext (squeeze_shared_state _ _ _ _ ho).1 (squeeze_shared_state _ _ _ _ ho).2
    · exact Prod.ext (squeeze_shared_state _ _ _ _ hd).1 (squeeze_shared_state _ _ _ _ hd).2
  · dsimp only at h1 h2
    subst h1
    subst h2
    obtain ⟨k1, k2, k3⟩ := h.flush y v b out hr ((squeeze_own ..).1 ho).1 ((squeeze_own ..).1 ho).2
    have hd := (squeeze_own L.zd w v out b).2 ⟨k1, k2⟩
    exact ⟨_, by rw [hd]; rfl, Or.inr ⟨_, _, squeeze_own_state _ _ _ _ _ ho, squeeze_own_state _ _ _ _ _ hd, k3⟩⟩

theorem encodeZ_cz (L : Lib M ZC ZD) (z : ZC) (e : Option (Comp ZC)) (m : M) :
    (encodeZ L z e m).2.2.1 = (encode (cz L) (e.map (z, ·)) (L.ser m)).2 ∧
    (encodeZ L z e m).2.1.map ((encodeZ L z e m).1, ·) = (encode (cz L) (e.map (z, ·)) (L.ser m)).1 := by
  cases e with
  | none => exact ⟨rfl, rfl⟩
  | some c =>
    unfold encodeZ encode
    dsimp only [Option.map_some]
    by_cases h : threshold ≤ (L.ser m).length
    · rw [if_pos h, if_pos (show threshold ≤ ((cz L).ser (L.ser m)).length from h)]
      unfold cz
      dsimp only
      rcases hq : squeeze L.zc z c (L.ser m) with ⟨z', c', o⟩
      cases o with
      | none => simp only [id, hq]; exact ⟨rfl, rfl⟩
      | some out => simp only [id, hq]; exact ⟨rfl, rfl⟩
    · rw [if_neg h, if_neg (show ¬ threshold ≤ ((cz L).ser (L.ser m)).length from h)]
      exact ⟨rfl, rfl⟩

/-- The decoder without the object of the thread. -/
def erase (d : Dec (ZD × Comp ZD)) : Dec (Comp ZD) := ⟨d.buf, d.decompressor.map (·.2), d.compressed, d.size⟩

def Holds (z : ZD) (d : Dec (ZD × Comp ZD)) : Prop := ∀ p, d.decompressor = some p → p.1 = z

theorem loopZ_cz (L : Lib M ZC ZD) (hp : ∀ m, L.parse (L.ser m) = some m) : ∀ (fuel : Nat) (z : ZD) (d d' : Dec (ZD × Comp ZD)) (n : Nat) (acc ms : List M),
    2 * d.buf.length + (if d.size.isSome then 1 else 0) < fuel → Holds z d → d.loop (cz L) = some (ms.map L.ser, d') →
    ∃ z', loopZ L fuel z (erase d) n acc = (z', erase d', n + (ms.map fun m => (L.ser m).length).sum, .ok (acc ++ ms)) ∧ Holds z' d'
  | 0, _, _, _, _, _, _, h, _, _ => absurd h (Nat.not_lt_zero _)
  | fuel + 1, z, d, d', n, acc, ms, hf, hz, hl => by
    cases hi : d.iter (cz L) with
    | err => rw [loop_err hi] at hl; cases hl
    | more =>
      rw [loop_more hi] at hl
      obtain ⟨h1, h2⟩ := Prod.mk.inj (Option.some.inj hl)
      subst h2
      cases ms with
      | cons => cases h1
      | nil =>
        refine ⟨z, ?_, hz⟩
        unfold loopZ
        unfold Dec.iter at hi
        dsimp only [erase]
        split at hi
        · rename_i hs
          simp only [hs]
          split at hi
          · cases hi
          · split
            · rename_i hb _ _ _ _ _ _ _ h; exact absurd h (hb _ _ _ _ _ _)
            · simp
        · rename_i k hs
          simp only [hs]
          split at hi
          · split at hi
            · cases hi
            · split at hi <;> cases hi
          · rename_i hk
            rw [if_neg hk]
            simp
    | next d1 m =>
      have hdec := Dec.iter_decreases hi
      rw [loop_next hi] at hl
      obtain ⟨bs', hl', hm⟩ : ∃ bs', d1.loop (cz L) = some (bs', d') ∧ m.toList ++ bs' = ms.map L.ser := by
        cases hd : d1.loop (cz L) with
        | none => rw [hd] at hl; cases hl
        | some p =>
          rw [hd] at hl
          obtain ⟨h1, h2⟩ := Prod.mk.inj (Option.some.inj hl)
          exact ⟨p.1, by rw [← h2], h1⟩
      unfold loopZ
      unfold Dec.iter at hi
      dsimp only [erase]
      split at hi
      · rename_i hs
        simp only [hs]
        split at hi
        · rename_i hb
          cases hi
          simp only [hb]
          rw [Option.toList_none, List.nil_append] at hm
          rw [hm] at hl'
          refine loopZ_cz L hp fuel z _ d' n acc ms ?_ ?_ hl'
          · omega
          · exact hz
        · cases hi
      · rename_i k hs
        simp only [hs]
        split at hi
        · rename_i hk
          rw [if_pos hk]
          unfold Dec.payload at hi
          by_cases hc : d.compressed = true
          · rw [if_pos hc] at hi ⊢
            cases hdz : d.decompressor with
            | none => simp [hdz] at hi
            | some p =>
              simp only [hdz] at hi
              cases hz p hdz
              rcases hq : squeeze L.zd p.1 p.2 (d.buf.take k) with ⟨z', c', o⟩
              have hcz : (cz L).decomp p (d.buf.take k) = o.map fun out => ((z', c'), out) := by
                unfold cz
                dsimp only
                rw [hq]
              rw [hcz] at hi
              cases o with
              | none => cases hi
              | some out =>
                cases hi
                cases ms with
                | nil => cases hm
                | cons m0 ms =>
                  obtain ⟨h1, h2⟩ := List.cons.inj hm
                  subst h1
                  rw [show ([] : List Bytes).append bs' = bs' from rfl] at h2
                  rw [h2] at hl'
                  obtain ⟨z2, h3, h4⟩ := loopZ_cz L hp fuel z' _ d' (n + (L.ser m0).length) (acc ++ [m0]) ms (by omega)
                    (by intro q hq'; cases hq'; rfl) hl'
                  refine ⟨z2, ?_, h4⟩
                  simp only [Option.map_some, hq, hp]
                  refine Eq.trans h3 ?_
                  rw [List.map_cons, List.sum_cons, Nat.add_assoc, List.append_assoc]
                  rfl
          · rw [if_neg hc] at hi ⊢
            cases hi
            cases ms with
            | nil => cases hm
            | cons m0 ms =>
              obtain ⟨h1, h2⟩ := List.cons.inj hm
              rw [show ([] : List Bytes).append bs' = bs' from rfl] at h2
              rw [h2] at hl'
              obtain ⟨z2, h3, h4⟩ := loopZ_cz L hp fuel z _ d' (n + (L.ser m0).length) (acc ++ [m0]) ms (by omega) (by exact hz) hl'
              refine ⟨z2, ?_, h4⟩
              simp only [h1, hp]
              refine Eq.trans h3 ?_
              rw [List.map_cons, List.sum_cons, Nat.add_assoc, List.append_assoc]
              rfl
        · cases hi

/-- The wire and the counters of a sender. -/
theorem run_sends (L : Lib M ZC ZD) : ∀ (ms : List M) (t : Thread ZC ZD) (e : End ZC ZD), t.ends = [e] →
    ∃ (e' : End ZC ZD) (bs : List (Bytes × Bool)), (t.run L (ms.map (.send 0))).1.ends = [e'] ∧ (t.run L (ms.map (.send 0))).2 = bs.map (fun x => .sent x.1 x.2) ∧
      (bs.map (·.1)).flatten = (encodeAll (cz L) (e.enc.map (t.zc, ·)) (ms.map L.ser)).2 ∧
      ((∀ x ∈ bs, x.1.length < 4294967296 + 5) → Short (cz L) (e.enc.map (t.zc, ·)) (ms.map L.ser)) ∧
      e'.cnt.tx.count = e.cnt.tx.count + (bs.map (·.1)).flatten.length ∧
      e'.cnt.txu.count = e.cnt.txu.count + (ms.map fun m => (L.ser m).length).sum + 5 * ms.length
  | [], t, e, he => ⟨e, [], he, rfl, rfl, fun _ => trivial, rfl, rfl⟩
  | m :: ms, t, e, he => by
    obtain ⟨k1, k2⟩ := encodeZ_cz L t.zc e.enc m
    have hs : t.step L (.send 0 m) = (⟨(encodeZ L t.zc e.enc m).1, t.zd, [(e.step L t.zc t.zd (.send 0 m)).2.2.1], t.reg.plus (e.step L t.zc t.zd (.send 0 m)).2.2.2.1⟩,
        .sent (encodeZ L t.zc e.enc m).2.2.1 (encodeZ L t.zc e.enc m).2.2.2) := by
      show t.on L 0 _ = _
      unfold Thread.on
      rw [he]
      rfl
    obtain ⟨e', bs, h1, h2, h3, h4, h5, h6⟩ := run_sends L ms (t.step L (.send 0 m)).1 (e.step L t.zc t.zd (.send 0 m)).2.2.1 (by rw [hs])
    have henc : ((e.step L t.zc t.zd (.send 0 m)).2.2.1).enc.map (((t.step L (.send 0 m)).1).zc, ·) = (encode (cz L) (e.enc.map (t.zc, ·)) (L.ser m)).1 := by
      rw [hs]
      exact k2
    rw [henc] at h3 h4
    refine ⟨e', ((encodeZ L t.zc e.enc m).2.2.1, (encodeZ L t.zc e.enc m).2.2.2) :: bs, ?_, ?_, ?_, ?_, ?_, ?_⟩
    · rw [List.map_cons, run_cons]
      exact h1
    · rw [List.map_cons, run_cons]
      dsimp only
      rw [h2, List.map_cons, hs]
    · rw [List.map_cons, List.flatten_cons, h3, List.map_cons, encodeAll]
      dsimp only
      rw [k1]
    · intro hb
      rw [List.map_cons]
      refine ⟨?_, h4 fun x hx => hb x (List.mem_cons_of_mem _ hx)⟩
      rw [← k1]
      exact hb _ List.mem_cons_self
    · rw [h5, List.map_cons, List.flatten_cons, List.length_append, ← Nat.add_assoc]
      rfl
    · rw [h6, List.map_cons, List.sum_cons, List.length_cons]
      show e.cnt.txu.count + ((L.ser m).length + 5) + _ + _ = _
      omega

/-- The messages and the counters of a receiver. -/
theorem run_receives (L : Lib M ZC ZD) (hp : ∀ m, L.parse (L.ser m) = some m) : ∀ (chunks : List Bytes) (ms : List M) (t : Thread ZC ZD) (e : End ZC ZD)
    (d d' : Dec (ZD × Comp ZD)), t.ends = [e] → e.dec = erase d → Holds t.zd d → d.feed (cz L) chunks = some (ms.map L.ser, d') →
    ∃ (e' : End ZC ZD) (outs : List (List M)), (t.run L (chunks.map (.receive 0))).1.ends = [e'] ∧
      (t.run L (chunks.map (.receive 0))).2 = outs.map (fun x => .received (.ok x)) ∧ outs.flatten = ms ∧
      e'.cnt.rx.count = e.cnt.rx.count + chunks.flatten.length ∧ e'.cnt.rxd.count = e.cnt.rxd.count + (ms.map fun m => (L.ser m).length).sum
  | [], ms, t, e, d, d', he, hd, hz, hf => by
    have : ms = [] := by
      cases ms with
      | nil => rfl
      | cons => cases hf
    subst this
    exact ⟨e, [], he, rfl, rfl, rfl, rfl⟩
  | x :: xs, ms, t, e, d, d', he, hd, hz, hf => by
    unfold Dec.feed at hf
    obtain ⟨ms1, ms2, d1, hms, hd1, hf2⟩ : ∃ ms1 ms2 d1, ms = ms1 ++ ms2 ∧ d.decode (cz L) x = some (ms1.map L.ser, d1) ∧ d1.feed (cz L) xs = some (ms2.map L.ser, d') := by
      cases hdx : d.decode (cz L) x with
      | none => rw [hdx] at hf; cases hf
      | some p =>
        rw [hdx] at hf
        dsimp only at hf
        cases hfx : p.2.feed (cz L) xs with
        | none => rw [hfx] at hf; cases hf
        | some q =>
          rw [hfx] at hf
          obtain ⟨h1, h2⟩ := Prod.mk.inj (Option.some.inj hf)
          obtain ⟨a, b, hab, ha, hb⟩ := List.map_eq_append_iff.1 h1.symm
          exact ⟨a, b, p.2, hab, by rw [ha], by rw [hfx, hb, ← h2]⟩
    subst hms
    obtain ⟨z', h1, h2⟩ := loopZ_cz L hp (2 * (d.buf ++ x).length + 2) t.zd { d with buf := d.buf ++ x } d1 0 [] ms1
      (by dsimp only; split <;> omega) hz hd1
    have hdz : decodeZ L t.zd e.dec x = (z', erase d1, (ms1.map fun m => (L.ser m).length).sum, .ok ms1) := by
      unfold decodeZ
      rw [hd]
      refine Eq.trans h1 ?_
      rw [Nat.zero_add, List.nil_append]
    have hs : t.step L (.receive 0 x) = (⟨t.zc, (decodeZ L t.zd e.dec x).1, [(e.step L t.zc t.zd (.receive 0 x)).2.2.1], t.reg.plus (e.step L t.zc t.zd (.receive 0 x)).2.2.2.1⟩,
        .received (decodeZ L t.zd e.dec x).2.2.2) := by
      show t.on L 0 _ = _
      unfold Thread.on
      rw [he]
      rfl
    obtain ⟨e', outs, g1, g2, g3, g4, g5⟩ := run_receives L hp xs ms2 (t.step L (.receive 0 x)).1 (e.step L t.zc t.zd (.receive 0 x)).2.2.1 d1 d'
      (by rw [hs]) (by show (decodeZ L t.zd e.dec x).2.1 = _; rw [hdz]) (by rw [hs, hdz]; exact h2) hf2
    refine ⟨e', ms1 :: outs, ?_, ?_, ?_, ?_, ?_⟩
    · rw [List.map_cons, run_cons]
      exact g1
    · rw [List.map_cons, run_cons]
      dsimp only
      rw [g2, List.map_cons, hs, hdz]
    · rw [List.flatten_cons, g3]
    · rw [g4, List.flatten_cons, List.length_append, ← Nat.add_assoc]
      rfl
    · rw [g5, List.map_append, List.sum_append, ← Nat.add_assoc]
      show e.cnt.rxd.count + (decodeZ L t.zd e.dec x).2.2.1 + _ = _
      rw [hdz]

/-- **C108, both ends.** For every zlib library whose decompressor undoes its compressor, every list of messages and every way in which the bytes are cut on
their way: the receiver gets the messages, has received as many bytes as the sender has sent, and its decompressed bytes are the sender's uncompressed bytes
without the five bytes in front of each message. -/
theorem C108_ends (L : Lib M ZC ZD) {R : ZC → ZD → Prop} (hi : Inverse L R) (comp other other' decomp : Option Bool) (hfit : comp = none ∨ comp = decomp) (ms : List M)
    (chunks : List Bytes) (e : End ZC ZD) (bs : List (Bytes × Bool))
    (he : ((Thread.new L).run L (.new comp other :: ms.map (.send 0))).1.ends = [e])
    (hb : ((Thread.new L).run L (.new comp other :: ms.map (.send 0))).2 = .unit :: bs.map (fun x => .sent x.1 x.2))
    (hshort : ∀ x ∈ bs, x.1.length < 4294967296 + 5) (hc : chunks.flatten = (bs.map (·.1)).flatten) :
    ∃ (e' : End ZC ZD) (outs : List (List M)),
      ((Thread.new L).run L (.new other' decomp :: chunks.map (.receive 0))).1.ends = [e'] ∧
      ((Thread.new L).run L (.new other' decomp :: chunks.map (.receive 0))).2 = .unit :: outs.map (fun x => .received (.ok x)) ∧
      outs.flatten = ms ∧ e'.cnt.rx.count = e.cnt.tx.count ∧ e'.cnt.rxd.count + 5 * ms.length = e.cnt.txu.count := by
  obtain ⟨e1, bs1, h1, h2, h3, h4, h5, h6⟩ := run_sends L ms ((Thread.new L).step L (.new comp other)).1 (End.new L comp other) rfl
  rw [run_cons] at he hb
  have hee : e1 = e := by
    rw [h1] at he
    exact (List.cons.inj he).1
  subst hee
  have hbb : bs1 = bs := by
    have := (List.cons.inj hb).2
    rw [h2] at this
    refine List.map_inj_right ?_ |>.1 this
    rintro ⟨a, b⟩ ⟨c, d⟩ h
    cases h
    rfl
  subst hbb
  have hfit' : ∀ s, ((End.new L comp other).enc.map (((Thread.new L).step L (.new comp other)).1.zc, ·)) = some s →
      ∃ d, decomp.map (fun k => (L.zd.fresh, compOf L.zd k)) = some d ∧ Fit L R s d := by
    intro s hs
    cases comp with
    | none => cases hs
    | some k =>
      rcases hfit with h | h
      · cases h
      · subst h
        refine ⟨_, rfl, ?_⟩
        cases hs
        cases k with
        | true => exact Or.inl ⟨rfl, rfl⟩
        | false => exact Or.inr ⟨_, _, rfl, rfl, hi.fresh⟩
  obtain ⟨d', hfeed, _, _⟩ := C18_roundtrip (cz_good hi) _ _ hfit' (ms.map L.ser) (h4 hshort) chunks (hc.trans h3)
  obtain ⟨e', outs, g1, g2, g3, g4, g5⟩ := run_receives L hi.parse chunks ms ((Thread.new L).step L (.new other' decomp)).1 (End.new L other' decomp) _ d' rfl
    (by cases decomp <;> rfl) (by intro p hp; cases decomp with
      | none => cases hp
      | some k => cases hp; rfl) hfeed
  refine ⟨e', outs, ?_, ?_, g3, ?_, ?_⟩
  · rw [run_cons]; exact g1
  · rw [run_cons, g2]; rfl
  · rw [g4, h5, hc]; rfl
  · rw [g5, h6]; rfl

/-! Examples: a library that puts 120 in front of what it compresses, and whose decompressor refuses anything else, and everything after that. -/

def toyC : Zlib Bytes := ⟨[], fun z b => (z ++ b, true), fun z => ([], some (120 :: z)), fun z => ([], some (120 :: z))⟩

def toyD : Zlib (Bool × Bytes) where
  fresh := (false, [])
  write := fun z b => if z.1 then (z, false) else match b with
    | 120 :: rest => ((false, z.2 ++ rest), true)
    | _ => ((true, []), false)
  flush := fun z => if z.1 then (z, none) else ((false, []), some z.2)
  finish := fun z => if z.1 then (z, none) else ((false, []), some z.2)

def toyL : Lib Bytes Bytes (Bool × Bytes) := ⟨id, some, toyC, toyD⟩

theorem toy_sticky : Sticky toyL.zd (fun z => z.1 = true) := by
  refine ⟨fun z b h => ?_, fun z h => ?_, fun z b h => ?_⟩
  · simp only [toyL, toyD] at h ⊢
    split
    · assumption
    · rename_i hz
      rw [if_neg hz] at h
      split at h
      · cases h
      · rfl
  · simp only [toyL, toyD] at h ⊢
    split
    · assumption
    · rename_i hz
      rw [if_neg hz] at h
      cases h
  · simp [toyL, toyD, h]

theorem toy_inverse : Inverse toyL (fun y w => y = [] ∧ w = (false, [])) := by
  refine ⟨fun _ => rfl, ?_, ⟨rfl, rfl⟩, ?_⟩
  · intro b out _ h
    cases h
    exact ⟨rfl, rfl⟩
  · rintro y w b out ⟨rfl, rfl⟩ _ h
    cases h
    exact ⟨rfl, rfl, rfl, rfl⟩

/-- A message long enough to be compressed. -/
def big : Bytes := List.replicate 100 7

/-- The messages, if there was no error. -/
def EOut.messages : EOut M → Option (List M)
  | .received (.ok ms) => some ms
  | _ => none

def EOut.bytes : EOut M → Option Bytes
  | .sent b _ => some b
  | _ => none

def EOut.failed : EOut M → Bool
  | .sent _ f => f
  | .received (.error .io) => true
  | _ => false

theorem EOut.not_failed {o : EOut M} (h : o.failed = false) : ¬ Failed o := by
  intro hf
  cases o with
  | unit => exact hf
  | sent b f => exact absurd (show f = true from hf) (by rw [show f = false from h]; nofun)
  | received r =>
    cases r with
    | ok => exact hf
    | error e => cases e <;> first | exact hf | cases h

/-- Two stateless streams; the frames of stream 0 come in two parts, with a compressed message of stream 1 in between. -/
def twoOps : List (EOp Bytes) :=
  [.new (some true) (some true), .new (some true) (some true), .register 1, .send 0 big, .send 1 [1, 2], .receive 0 [0, 0, 0], .receive 1 (1 :: putU32 3 ++ [120, 5, 6]),
   .register 0, .receive 0 [0, 2, 8, 9], .sendRaw 1 [4]]

example : (∀ o ∈ ((Thread.new toyL).run toyL twoOps).2, ¬ Failed o) ∧
    (outsOf 0 twoOps ((Thread.new toyL).run toyL twoOps).2).map EOut.messages = [none, some [], none, some [[8, 9]]] ∧
    (outsOf 0 twoOps ((Thread.new toyL).run toyL twoOps).2).map EOut.bytes = [some (1 :: putU32 101 ++ 120 :: big), none, none, none] := by
  refine ⟨fun o ho => EOut.not_failed ?_, by decide +kernel, by decide +kernel⟩
  exact (show ((Thread.new toyL).run toyL twoOps).2.all (fun o => !o.failed) = true by decide +kernel) |> List.all_eq_true.1 |> (· o ho) |> (by simpa using ·)

/-- The message of stream 0 is not zlib, and a message of stream 2, opened later, is refused although nothing is wrong with it. -/
example : let t := ((Thread.new toyL).run toyL ([.new (some true) (some true)] ++ [.receive 0 (1 :: putU32 1 ++ [3])] ++ [.new none (some false)] ++ [.new none (some true)])).1
    (t.step toyL (.receive (t.ends.length - 1) (1 :: putU32 2 ++ [120, 9] ++ []))).2 = .received (.error .io) :=
  C107_poisoned_violated toyL toy_sticky _ _ 0 _ _ rfl rfl rfl none [120, 9] [] (by decide)

/-- On a thread of its own the same message is received. -/
example : (((Thread.new toyL).run toyL [.new none (some true), .receive 0 (1 :: putU32 2 ++ [120, 9])]).2.map EOut.messages) = [none, some [[9]]] := by
  decide +kernel

example : registered 0 twoOps = [1, 0] ∧ (registered 0 twoOps).Nodup ∧ ((Thread.new toyL).run toyL twoOps).1.reg = ⟨114, 113, 3, 15, 4⟩ := by decide +kernel

example : total seenTx 0 twoOps ((Thread.new toyL).run toyL twoOps).2 = 106 ∧ total (seenTxu toyL.ser) 0 twoOps ((Thread.new toyL).run toyL twoOps).2 = 105 ∧
    total seenRx 1 twoOps ((Thread.new toyL).run toyL twoOps).2 = 8 := by decide +kernel

/-- A short and a long message over a stateful stream, one byte and then the rest. -/
example : ∃ (e : End Bytes (Bool × Bytes)) (bs : List (Bytes × Bool)) (chunks : List Bytes), ((Thread.new toyL).run toyL (.new (some false) none :: [[1, 2], big].map (.send 0))).1.ends = [e] ∧
    ((Thread.new toyL).run toyL (.new (some false) none :: [[1, 2], big].map (.send 0))).2 = .unit :: bs.map (fun x => .sent x.1 x.2) ∧
    (∀ x ∈ bs, x.1.length < 4294967296 + 5) ∧ chunks.flatten = (bs.map (·.1)).flatten ∧ chunks.length = 2 ∧
    e.cnt.tx.count = 113 ∧ e.cnt.txu.count = 112 := by
  refine ⟨_, [(0 :: putU32 2 ++ [1, 2], false), (1 :: putU32 101 ++ 120 :: big, false)], [[0], putU32 2 ++ [1, 2] ++ (1 :: putU32 101 ++ 120 :: big)], rfl, ?_, ?_, ?_, ?_, ?_, ?_⟩
  · rfl
  · decide
  · decide
  · rfl
  · decide +kernel
  · decide +kernel

end Verif.Grpc.Ends
