import Verif.Lemmas.Transport

/-!
# The invariant is kept
-/

namespace Verif.Transport

open Verif.Lsp

variable {T : Tools}

theorem Inv.start : Inv ({} : Net T) where
  order := rfl
  acc := .slnil
  sub := .slnil
  ids := .nil
  runs := ⟨[], [], .nil _, by simp, by simp, by simp⟩
  wacc := by simp
  wloc := by simp
  answ := by simp
  shape := rfl
  loopr := by simp
  loope := by simp
  loopc := by simp
  canc := by simp
  cmsg := by simp
  rej := by simp [msgIds]
  rejn := by simp
  dacc := by simp
  init := by simp
  down := by simp
  panic := by simp

/-! ## Messages -/

theorem Inv.skip {n : Net T} (i : Inv n) {m : Msg} (hm : msgId m = none) : Inv { n with read := n.read ++ [m] } := by
  have h : msgIds (n.read ++ [m]) = msgIds n.read := by simp [msgIds, hm]
  exact { i with
    acc := by
      show n.accepted.Sublist ((n.read ++ [m]).filterMap toEvent)
      rw [List.filterMap_append]
      exact i.acc.trans (List.sublist_append_left _ _)
    sub := by simpa [h] using i.sub
    ids := by simpa [h] using i.ids
    cmsg := fun id hc => by simp [i.cmsg id hc]
    rej := by simpa [h] using i.rej
    rejn := by simpa [h] using i.rejn
    down := fun hd => by obtain ⟨id, hi⟩ := i.down hd; exact ⟨id, by simp [hi]⟩ }

theorem Inv.enqueue {n : Net T} (i : Inv n) {m : Msg} {e : Event} (st : Status) (hid : evId e = msgId m)
    (hev : toEvent m = some e) (hn : (msgIds (n.read ++ [m])).Nodup) (hs : Shape (n.accepted ++ [e]) st)
    (hi : n.status = .initialized ∨ n.status = .shutDown → st = .initialized ∨ st = .shutDown)
    (hd : st = .shutDown → ∃ id, .request id .shutdown ∈ n.read ++ [m]) :
    Inv ({ n with read := n.read ++ [m], status := st }.enqueue e) := by
  have hnew : ∀ id, evId e = some id → id ∉ msgIds n.read := by
    intro id he hin
    rw [hid] at he
    rw [msgIds_append, List.nodup_append] at hn
    exact hn.2.2 id hin id (by simp [msgIds, he]) rfl
  have hids : msgIds (n.read ++ [m]) = msgIds n.read ++ evIds [e] := by
    rw [msgIds_append]; simp only [msgIds, evIds, List.filterMap_cons, List.filterMap_nil, hid]
  have hk : kept n.dropped e = true := by
    unfold kept
    cases he : evId e with
    | none => rfl
    | some id =>
      simp only [Bool.not_eq_true', List.contains_eq_mem, decide_eq_false_iff_not]
      exact fun hdr => hnew id he (i.sub.subset (i.dacc id hdr))
  exact { i with
    order := by
      simp only [Net.enqueue]
      rw [List.filter_append, i.order, List.filter_cons_of_pos hk]
      simp
    acc := by
      simp only [Net.enqueue]
      rw [List.filterMap_append, List.filterMap_cons, hev]
      exact i.acc.append (List.Sublist.refl _)
    sub := by
      simp only [Net.enqueue]
      rw [hids, evIds_append]
      exact i.sub.append (List.Sublist.refl _)
    ids := by
      simp only [Net.enqueue]
      rw [hids, evIds_append]
      refine (i.ids.append_right _).trans ?_
      simp only [List.append_assoc]
      refine List.Perm.append_left _ ?_
      rw [← List.append_assoc]
      exact List.perm_append_comm
    wacc := fun x hx => by simp [Net.enqueue, i.wacc x hx]
    shape := hs
    cmsg := fun id hc => by simp [Net.enqueue, i.cmsg id hc]
    rej := fun id h => by
      simp only [Net.enqueue] at h ⊢
      rw [hids, List.mem_append] at h
      rw [evIds_append, List.mem_append]
      rcases h with h | h
      · rcases i.rej id h with h | h
        · exact .inl (.inl h)
        · exact .inr h
      · exact .inl (.inr h)
    rejn := fun id h => by
      simp only [Net.enqueue] at h ⊢
      obtain ⟨h1, h2⟩ := i.rejn id h
      rw [hids, evIds_append, List.mem_append, List.mem_append]
      refine ⟨.inl h1, ?_⟩
      rintro (h3 | h3)
      · exact h2 h3
      · obtain ⟨e', he', h4⟩ := List.mem_filterMap.1 h3
        rw [List.mem_singleton.1 he'] at h4
        exact hnew id h4 h1
    dacc := fun id h => by
      simp only [Net.enqueue] at h ⊢
      rw [evIds_append, List.mem_append]
      exact .inl (i.dacc id h)
    init := fun h => hi (i.init h)
    down := hd }

theorem Inv.reject {n : Net T} (i : Inv n) {id : Nat} {r : Request}
    (hn : (msgIds (n.read ++ [Msg.request id r])).Nodup) :
    Inv ({ n with read := n.read ++ [Msg.request id r] }.reject id) := by
  have hids : msgIds (n.read ++ [Msg.request id r]) = msgIds n.read ++ [id] := by
    rw [msgIds_append]; rfl
  have hnew : id ∉ msgIds n.read := by
    intro hin
    rw [hids, List.nodup_append] at hn
    exact hn.2.2 id hin id (by simp) rfl
  exact { i with
    acc := by
      simp only [Net.reject]
      rw [List.filterMap_append]
      exact i.acc.trans (List.sublist_append_left _ _)
    sub := by
      simp only [Net.reject]
      rw [hids]
      exact i.sub.trans (List.sublist_append_left _ _)
    ids := by
      simp only [Net.reject]
      rw [hids, List.map_append, ← List.append_assoc]
      exact i.ids.append_right _
    runs := by
      obtain ⟨rs, os, h1, h2, h3, h4⟩ := i.runs
      refine ⟨rs, os, h1, h2, ?_, ?_⟩
      · intro id' r' h
        simp only [Net.reject, List.mem_append, List.mem_singleton, Prod.mk.injEq] at h
        rcases h with h | h
        · exact h3 _ _ h
        · cases h.2
      · intro id' h
        simp only [Net.reject, List.mem_append, List.mem_singleton, Prod.mk.injEq] at h
        rcases h with h | h
        · exact h4 _ h
        · cases h.2
    canc := fun id' h => List.mem_append_left _ (i.canc id' h)
    cmsg := fun id' h => by
      simp only [Net.reject, List.mem_append, List.mem_singleton, Prod.mk.injEq] at h ⊢
      rcases h with h | h
      · exact .inl (i.cmsg id' h)
      · cases h.2
    rej := fun id' h => by
      simp only [Net.reject] at h ⊢
      rw [hids, List.mem_append, List.mem_singleton] at h
      rcases h with h | rfl
      · rcases i.rej id' h with h | h
        · exact .inl h
        · exact .inr (List.mem_append_left _ h)
      · exact .inr (by simp)
    rejn := fun id' h => by
      simp only [Net.reject, List.mem_append, List.mem_singleton, Prod.mk.injEq] at h ⊢
      rw [hids]
      rcases h with h | ⟨rfl, _⟩
      · exact ⟨List.mem_append_left _ (i.rejn id' h).1, (i.rejn id' h).2⟩
      · exact ⟨by simp, fun h => hnew (i.sub.subset h)⟩
    init := by
      rintro ⟨id', enc, h⟩
      simp only [Net.reject, List.mem_append, List.mem_singleton, Prod.mk.injEq] at h
      rcases h with h | h
      · exact i.init ⟨id', enc, h⟩
      · cases h.2
    down := fun hd => by obtain ⟨id', h⟩ := i.down hd; exact ⟨id', List.mem_append_left _ h⟩ }

theorem isTask_iff {id : Nat} {e : Event} : isTask id e = true ↔ ∃ r, e = .request id r ∧ ordinary r = true := by
  cases e <;> simp [isTask, requestOf]
  case request j r =>
    constructor
    · rintro ⟨rfl, h⟩; exact ⟨r, ⟨rfl, rfl⟩, h⟩
    · rintro ⟨r', ⟨rfl, rfl⟩, h⟩; exact ⟨rfl, h⟩

/-- Replies other than results come from nowhere else. -/
theorem runs_sent {n : Net T} (i : Inv n) {id : Nat} {p : Reply} (hp : p = .cancelled ∨ p = .rejected) :
    ∃ rs os, Runs {} n.done n.state rs os ∧ (∀ a ∈ n.answered, a ∈ rs) ∧
    (∀ id' r, (id', .result r) ∈ n.sent ++ [(id, p)] → (id', some r) ∈ rs) ∧
    (∀ id', (id', .failed) ∈ n.sent ++ [(id, p)] → (id', none) ∈ rs) := by
  obtain ⟨rs, os, h1, h2, h3, h4⟩ := i.runs
  refine ⟨rs, os, h1, h2, ?_, ?_⟩
  · intro id' r' h
    simp only [List.mem_append, List.mem_singleton, Prod.mk.injEq] at h
    rcases h with h | ⟨_, rfl⟩
    · exact h3 _ _ h
    · rcases hp with hp | hp <;> cases hp
  · intro id' h
    simp only [List.mem_append, List.mem_singleton, Prod.mk.injEq] at h
    rcases h with h | ⟨_, rfl⟩
    · exact h4 _ h
    · rcases hp with hp | hp <;> cases hp

theorem kept_append {d : List Nat} {id : Nat} {e : Event} :
    kept (d ++ [id]) e = (kept d e && !(evId e == some id)) := by
  unfold kept
  cases h : evId e with
  | none => rfl
  | some j => by_cases hj : j = id <;> simp [hj]

theorem Inv.cancel {n : Net T} (i : Inv n) (hn : (msgIds n.read).Nodup) {id : Nat} (hc : .cancel id ∈ n.read) :
    Inv (n.cancel id) := by
  obtain ⟨nq, nw, ns, nqw, nws, na⟩ := nodup_of_read i hn
  have hcmsg : ∀ id', (id', Reply.cancelled) ∈ n.sent ++ [(id, .cancelled)] → Msg.cancel id' ∈ n.read := by
    intro id' h
    simp only [List.mem_append, List.mem_singleton, Prod.mk.injEq] at h
    rcases h with h | ⟨rfl, _⟩
    · exact i.cmsg id' h
    · exact hc
  have hrejn : ∀ id', (id', Reply.rejected) ∈ n.sent ++ [(id, .cancelled)] →
      id' ∈ msgIds n.read ∧ id' ∉ evIds n.accepted := by
    intro id' h
    simp only [List.mem_append, List.mem_singleton, Prod.mk.injEq] at h
    rcases h with h | h
    · exact i.rejn id' h
    · cases h.2
  have hrej : ∀ id', id' ∈ msgIds n.read → id' ∈ evIds n.accepted ∨
      (id', Reply.rejected) ∈ n.sent ++ [(id, .cancelled)] := fun id' h =>
    (i.rej id' h).imp_right (List.mem_append_left _)
  have hinit : (∃ id' enc, (id', Reply.result (.initialize enc)) ∈ n.sent ++ [(id, .cancelled)]) →
      n.status = .initialized ∨ n.status = .shutDown := by
    rintro ⟨id', enc, h⟩
    simp only [List.mem_append, List.mem_singleton, Prod.mk.injEq] at h
    rcases h with h | h
    · exact i.init ⟨id', enc, h⟩
    · cases h.2
  unfold Net.cancel
  split
  · rename_i hq
    have hmem : id ∈ evIds n.queue := by
      obtain ⟨e, he, ht⟩ := List.any_eq_true.1 hq
      exact List.mem_filterMap.2 ⟨e, he, evId_of_isTask ht⟩
    -- events of the same request
    have hqacc : ∀ e ∈ n.accepted, kept n.dropped e = true → evId e = some id → isTask id e = true := by
      intro e he hk hei
      obtain ⟨e', he', ht⟩ := List.any_eq_true.1 hq
      obtain ⟨r, rfl, ho⟩ := isTask_iff.1 ht
      have : Event.request id r ∈ n.accepted := by
        have : Event.request id r ∈ n.accepted.filter (kept n.dropped) := by rw [i.order]; simp [he']
        exact (List.mem_filter.1 this).1
      cases e with
      | request j r' =>
        simp only [evId, Option.some.injEq] at hei
        subst hei
        rw [evIds_inj na he this]
        exact ht
      | notification _ => cases hei
      | kernel => cases hei
    have hnodup : (evIds (n.accepted.filter (kept n.dropped))).Nodup :=
      (List.Sublist.filterMap _ List.filter_sublist).nodup na
    rw [i.order, evIds_append, List.nodup_append] at hnodup
    have hother : ∀ e ∈ n.done.map Prod.snd ++ n.channel, evId e ≠ some id := fun e he hei =>
      hnodup.2.2 id (List.mem_filterMap.2 ⟨e, he, hei⟩) id hmem rfl
    exact { i with
      order := by
        show n.accepted.filter (kept (n.dropped ++ [id])) = n.done.map Prod.snd ++ n.channel ++ _
        have h1 : n.accepted.filter (kept (n.dropped ++ [id])) =
            (n.accepted.filter (kept n.dropped)).filter (fun e => !(evId e == some id)) := by
          rw [List.filter_filter]
          exact List.filter_congr fun e _ => by rw [kept_append, Bool.and_comm]
        rw [h1, i.order, List.filter_append]
        congr 1
        · rw [List.filter_eq_self]
          intro e he
          simpa using hother e he
        · refine List.filter_congr fun e he => ?_
          have hin : e ∈ n.accepted.filter (kept n.dropped) := by rw [i.order]; simp [he]
          obtain ⟨h2, h3⟩ := List.mem_filter.1 hin
          congr 1
          rw [Bool.eq_iff_iff]
          constructor
          · intro h; exact hqacc e h2 h3 (by simpa using h)
          · intro h; simpa using evId_of_isTask h
      ids := by
        refine i.ids.trans ?_
        simp only [List.map_append, List.map_cons, List.map_nil]
        refine (((perm_filter_task nq hq).append_right _).append_right _).trans ?_
        simp only [List.cons_append]
        rw [← List.append_assoc]
        exact (List.perm_append_singleton _ _).symm
      runs := runs_sent i (.inl rfl)
      canc := fun id' h => by
        simp only [List.mem_append, List.mem_singleton] at h
        rcases h with h | rfl
        · exact List.mem_append_left _ (i.canc id' h)
        · simp
      cmsg := hcmsg, rej := hrej, rejn := hrejn, init := hinit
      dacc := fun id' h => by
        simp only [List.mem_append, List.mem_singleton] at h
        rcases h with h | rfl
        · exact i.dacc id' h
        · obtain ⟨e, he, h2⟩ := List.mem_filterMap.1 hmem
          have hin : e ∈ n.accepted.filter (kept n.dropped) := by rw [i.order]; simp [he]
          exact List.mem_filterMap.2 ⟨e, (List.mem_filter.1 hin).1, h2⟩ }
  · split
    · rename_i hw
      obtain ⟨x, hx, hxw⟩ := List.any_eq_true.1 hw
      have hkey : ∀ y ∈ n.waiting, isWaiting id y = true → y.1 = id := by
        intro y _ h
        simp only [isWaiting, Bool.and_eq_true, beq_iff_eq] at h
        exact h.1
      have hperm := perm_filter_key (isWaiting id) hkey nw ⟨x, hx, hxw⟩
      exact { i with
        ids := by
          refine i.ids.trans ?_
          simp only [List.map_append, List.map_cons, List.map_nil]
          refine ((hperm.append_left _).append_right _).trans ?_
          rw [← List.append_assoc]
          refine List.Perm.trans ?_ (List.perm_append_singleton id _).symm
          refine (List.perm_middle.append_right _).trans ?_
          simp
        runs := by
          obtain ⟨rs, os, h1, h2, h3, h4⟩ := runs_sent i (id := id) (p := .cancelled) (.inl rfl)
          exact ⟨rs, os, h1, fun a ha => h2 a (List.mem_filter.1 ha).1, h3, h4⟩
        wacc := fun y hy => i.wacc y (List.mem_filter.1 hy).1
        wloc := fun hl y hy => by
          obtain ⟨hy1, hy2⟩ := List.mem_filter.1 hy
          rcases i.wloc hl y hy1 with h | h
          · left
            obtain ⟨a, ha, h⟩ := List.mem_map.1 h
            refine List.mem_map.2 ⟨a, List.mem_filter.2 ⟨ha, ?_⟩, h⟩
            have : y.1 ≠ id := by
              intro hyi
              have h5 : id ∉ (n.waiting.filter fun x => !isWaiting id x).map Prod.fst :=
                (List.nodup_cons.1 (hperm.nodup_iff.1 nw)).1
              exact h5 (List.mem_map.2 ⟨y, hy, hyi⟩)
            simp [h, this]
          · exact .inr h
        answ := fun a ha => by
          obtain ⟨h1, h2⟩ := List.mem_filter.1 ha
          have h3 := hperm.subset (i.answ a h1)
          rcases List.mem_cons.1 h3 with h3 | h3
          · simp [h3] at h2
          · exact h3
        canc := fun id' h => List.mem_append_left _ (i.canc id' h)
        cmsg := hcmsg, rej := hrej, rejn := hrejn, init := hinit }
    · exact i

theorem Inv.receive {n : Net T} (i : Inv n) (m : Msg) (hn : (msgIds (n.read ++ [m])).Nodup) : Inv (n.receive m) := by
  have hs := i.shape
  cases m with
  | notification x =>
    simp only [Net.receive]
    cases hst : n.status with
    | initialized =>
      rw [hst] at hs
      obtain ⟨id, f, c, rest, hs, hr⟩ := hs
      have := i.enqueue (m := .notification x) (e := .notification x) .initialized rfl rfl hn
        ⟨id, f, c, rest ++ [.notification x], by simp [hs], by
          intro e he
          rcases List.mem_append.1 he with he | he
          · exact hr e he
          · rw [List.mem_singleton.1 he]; trivial⟩ (fun _ => .inl rfl) (by simp)
      exact this
    | _ =>
      have := i.skip (m := .notification x) rfl
      rw [hst] at this
      exact this
  | cancel id =>
    simp only [Net.receive]
    have := i.skip (m := .cancel id) rfl
    exact this.cancel hn (by simp)
  | request id r =>
    have hordinary : ordinary r = true → n.status = .initialized →
        Inv ({ n with read := n.read ++ [Msg.request id r] }.enqueue (Event.request id r)) := by
      intro ho hst
      rw [hst] at hs
      obtain ⟨id0, f, c, rest, hs, hr⟩ := hs
      have := i.enqueue (m := .request id r) (e := .request id r) .initialized rfl rfl hn
        ⟨id0, f, c, rest ++ [.request id r], by simp [hs], by
          intro e he
          rcases List.mem_append.1 he with he | he
          · exact hr e he
          · rw [List.mem_singleton.1 he]; exact ho⟩ (fun _ => .inl rfl) (by simp)
      rw [← hst] at this
      exact this
    simp only [Net.receive]
    cases r with
    | «initialize» f c =>
      cases hst : n.status with
      | uninitialized =>
        rw [hst] at hs
        exact i.enqueue (m := .request id (.initialize f c)) .initializing rfl rfl hn
          ⟨id, f, c, by simp [show n.accepted = [] from hs]⟩ (by simp [hst]) (by simp)
      | _ =>
        have := i.reject hn
        rw [hst] at this
        exact this
    | shutdown =>
      cases hst : n.status with
      | initialized =>
        rw [hst] at hs
        obtain ⟨id0, f, c, rest, hs, hr⟩ := hs
        exact i.enqueue (m := .request id .shutdown) .shutDown rfl rfl hn
          ⟨id0, f, c, rest, id, by simp [hs], hr⟩ (by simp) (fun _ => ⟨id, by simp⟩)
      | _ =>
        have := i.reject hn
        rw [hst] at this
        exact this
    | formatting u o =>
      cases hst : n.status with
      | initialized =>
        have := hordinary rfl hst
        rw [hst] at this
        exact this
      | _ =>
        have := i.reject hn
        rw [hst] at this
        exact this
    | rangeFormatting u g o =>
      cases hst : n.status with
      | initialized =>
        have := hordinary rfl hst
        rw [hst] at this
        exact this
      | _ =>
        have := i.reject hn
        rw [hst] at this
        exact this
    | viewFile u k =>
      cases hst : n.status with
      | initialized =>
        have := hordinary rfl hst
        rw [hst] at this
        exact this
      | _ =>
        have := i.reject hn
        rw [hst] at this
        exact this

/-! ## Tasks and the main loop -/

theorem Inv.poll {n : Net T} (i : Inv n) {e : Event} {es : List Event} (h : n.queue = e :: es) : Inv (n.poll e es) := by
  unfold Net.poll
  split
  · rename_i hl
    have hin : e ∈ n.accepted := by
      have : e ∈ n.accepted.filter (kept n.dropped) := by rw [i.order, h]; simp
      exact (List.mem_filter.1 this).1
    have hreq : ∀ x ∈ (requestOf e).toList, e = .request x.1 x.2 := by
      intro x hx
      cases e <;> simp [requestOf] at hx
      subst hx; rfl
    exact { i with
      order := by
        show _ = _ ++ (n.channel ++ [e]) ++ es
        rw [i.order, h]; simp
      ids := by
        refine i.ids.trans ?_
        rw [h]
        refine List.Perm.append_right _ ?_
        have : evIds (e :: es) = (requestOf e).toList.map Prod.fst ++ evIds es := by
          simp only [evIds, List.filterMap_cons, evId_eq]
          cases requestOf e <;> rfl
        rw [this, List.map_append, List.append_assoc]
        refine List.perm_append_comm.trans ?_
        rw [List.append_assoc]
      wacc := fun x hx => by
        rcases List.mem_append.1 hx with hx | hx
        · exact i.wacc x hx
        · rw [← hreq x hx]; exact hin
      wloc := fun hc x hx => by
        rcases List.mem_append.1 hx with hx | hx
        · exact (i.wloc hc x hx).imp_right (List.mem_append_left _)
        · right; rw [← hreq x hx]; simp
      answ := fun a ha => by
        rw [List.map_append]
        exact List.mem_append_left _ (i.answ a ha)
      loopc := fun hc => by rw [show n.loop = .crashed from hc] at hl; cases hl }
  · rename_i hl
    exact { i with
      panic := fun _ => by
        show n.loop = .crashed
        cases hlo : n.loop with
        | running => exact absurd hlo hl
        | crashed => rfl
        | ended => rw [(i.ended hlo).2] at h; cases h }

theorem Inv.handle {n : Net T} (i : Inv n) (env : Env) {e : Event} {es : List Event} (hl : n.loop = .running)
    (h : n.channel = e :: es) : Inv (n.handle env e es) := by
  unfold Net.handle
  cases ht : handleEvent env e n.state with
  | none =>
    exact { i with
      wloc := fun hc => absurd rfl hc
      loopr := by simp
      loope := by simp
      loopc := fun _ => ⟨env, e, es, h, ht⟩
      panic := fun _ => rfl }
  | some t =>
    have hsd := shutdown_iff ht
    exact { i with
      order := by
        show _ = (n.done ++ [(env, e)]).map Prod.snd ++ es ++ n.queue
        rw [i.order, h]; simp
      runs := by
        obtain ⟨rs, os, h1, h2, h3, h4⟩ := i.runs
        refine ⟨_, _, .snoc h1 ht, ?_, fun id r hr => List.mem_append_left _ (h3 id r hr),
          fun id hr => List.mem_append_left _ (h4 id hr)⟩
        intro a ha
        rcases List.mem_append.1 ha with ha | ha
        · exact List.mem_append_left _ (h2 a ha)
        · exact List.mem_append_right _ (List.mem_filter.1 ha).1
      wloc := fun _ x hx => by
        have hc : n.loop ≠ .crashed := by rw [hl]; simp
        rcases i.wloc hc x hx with hw | hw
        · left
          rw [List.map_append]
          exact List.mem_append_left _ hw
        · rw [h] at hw
          rcases List.mem_cons.1 hw with hw | hw
          · left
            subst hw
            simp only [handleEvent, Option.map_eq_some_iff] at ht
            obtain ⟨⟨s2, a⟩, _, rfl⟩ := ht
            rw [List.map_append, List.mem_append]
            right
            refine List.mem_map.2 ⟨(x.1, a), List.mem_filter.2 ⟨by simp, ?_⟩, rfl⟩
            exact List.any_eq_true.2 ⟨x, hx, by simp⟩
          · exact .inr hw
      answ := fun a ha => by
        rcases List.mem_append.1 ha with ha | ha
        · exact i.answ a ha
        · obtain ⟨x, hx, h2⟩ := List.any_eq_true.1 (List.mem_filter.1 ha).2
          rw [← beq_iff_eq.1 h2]
          exact List.mem_map_of_mem hx
      loopr := fun hr id hm => by
        simp only [List.map_append, List.mem_append, List.map_cons, List.map_nil, List.mem_singleton] at hm
        rcases hm with hm | hm
        · exact i.loopr hl id hm
        · have := hsd.2 ⟨id, hm.symm⟩
          simp [this] at hr
      loope := fun hr => by
        have : t.shutdown = true := by
          cases hts : t.shutdown with
          | true => rfl
          | false => simp [hts] at hr
        obtain ⟨id, he⟩ := hsd.1 this
        exact ⟨id, by simp [he]⟩
      loopc := fun hr => by
        simp only at hr
        split at hr <;> cases hr
      panic := fun hp => by
        have := i.panic hp
        rw [hl] at this
        cases this }

theorem Inv.finish {n : Net T} (i : Inv n) (hn : (msgIds n.read).Nodup) {id : Nat} {r : Request} {a : Answer Response}
    (hw : (id, r) ∈ n.waiting) (ha : (id, a) ∈ n.answered) : Inv (n.finish id r a) := by
  obtain ⟨nq, nw, ns, nqw, nws, na⟩ := nodup_of_read i hn
  obtain ⟨rs, os, h1, h2, h3, h4⟩ := i.runs
  obtain ⟨env, r', s1, s2, h5, h6⟩ := response_from h1 (h2 _ ha)
  have h7 : Event.request id r' ∈ n.accepted := by
    have : Event.request id r' ∈ n.accepted.filter (kept n.dropped) := by
      rw [i.order]
      simp only [List.mem_append, List.mem_map]
      exact .inl (.inl ⟨_, h5, rfl⟩)
    exact (List.mem_filter.1 this).1
  have hacc : Event.request id r ∈ n.accepted := i.wacc _ hw
  obtain rfl : r = r' := evIds_inj na hacc h7
  have hfit := fits_of_handle h6
  unfold Net.finish
  rw [if_pos hfit]
  have hperm := perm_filter_key (id := id) (fun x => x.1 == id) (fun x _ h => beq_iff_eq.1 h) nw ⟨_, hw, by simp⟩
  have hfilter : (n.waiting.filter fun x => !(x.1 == id)) = n.waiting.filter fun x => x.1 != id := rfl
  rw [hfilter] at hperm
  have hrep : ∀ p, (replyOf a = p) → p ≠ .cancelled ∧ p ≠ .rejected := by
    rintro p rfl; cases a <;> simp [replyOf]
  have hmem : ∀ {id' : Nat} {p : Reply}, (p = .cancelled ∨ p = .rejected) → (id', p) ∈ n.sent ++ [(id, replyOf a)] →
      (id', p) ∈ n.sent := by
    intro id' p hp h
    rcases List.mem_append.1 h with h | h
    · exact h
    · simp only [List.mem_singleton, Prod.mk.injEq] at h
      have := hrep p h.2.symm
      rcases hp with hp | hp
      · exact absurd hp this.1
      · exact absurd hp this.2
  have hinit : ∀ f c, r = .initialize f c → ∃ enc, a = some (.initialize enc) := by
    rintro f c rfl; exact initialize_some h6
  have hstatus : (afterReply n.status r a = n.status ∧
        (∀ enc, a = some (.initialize enc) → n.status = .initialized ∨ n.status = .shutDown)) ∨
      (n.status = .initializing ∧ afterReply n.status r a = .initialized) := by
    cases r with
    | «initialize» f c =>
      obtain ⟨enc, rfl⟩ := hinit f c rfl
      simp only [afterReply]
      by_cases hst : n.status = .initializing
      · right; simp [hst]
      · left
        rw [if_neg hst]
        refine ⟨rfl, fun _ _ => ?_⟩
        cases hs : n.status with
        | uninitialized =>
          have := i.shape
          rw [hs] at this
          rw [show n.accepted = [] from this] at hacc
          cases hacc
        | initializing => exact absurd hs hst
        | initialized => exact .inl rfl
        | shutDown => exact .inr rfl
    | shutdown => left; refine ⟨rfl, ?_⟩; rintro enc rfl; cases hfit
    | formatting u o => left; refine ⟨rfl, ?_⟩; rintro enc rfl; cases hfit
    | rangeFormatting u g o => left; refine ⟨rfl, ?_⟩; rintro enc rfl; cases hfit
    | viewFile u k => left; refine ⟨rfl, ?_⟩; rintro enc rfl; cases hfit
  generalize afterReply n.status r a = st at hstatus
  exact { i with
    ids := by
      refine i.ids.trans ?_
      simp only [List.map_append, List.map_cons, List.map_nil]
      refine ((hperm.append_left _).append_right _).trans ?_
      rw [← List.append_assoc]
      refine List.Perm.trans ?_ (List.perm_append_singleton id _).symm
      refine (List.perm_middle.append_right _).trans ?_
      simp
    runs := by
      refine ⟨rs, os, h1, fun x hx => h2 x (List.mem_filter.1 hx).1, ?_, ?_⟩
      · intro id' q h
        rcases List.mem_append.1 h with h | h
        · exact h3 _ _ h
        · simp only [List.mem_singleton, Prod.mk.injEq] at h
          obtain ⟨rfl, hq⟩ := h
          cases a with
          | none => cases hq
          | some a => cases hq; exact h2 _ ha
      · intro id' h
        rcases List.mem_append.1 h with h | h
        · exact h4 _ h
        · simp only [List.mem_singleton, Prod.mk.injEq] at h
          obtain ⟨rfl, hq⟩ := h
          cases a with
          | none => exact h2 _ ha
          | some a => cases hq
    wacc := fun y hy => i.wacc y (List.mem_filter.1 hy).1
    wloc := fun hc y hy => by
      obtain ⟨hy1, hy2⟩ := List.mem_filter.1 hy
      refine (i.wloc hc y hy1).imp_left fun h => ?_
      obtain ⟨b, hb, h⟩ := List.mem_map.1 h
      exact List.mem_map.2 ⟨b, List.mem_filter.2 ⟨hb, by rw [h]; exact hy2⟩, h⟩
    answ := fun b hb => by
      obtain ⟨hb1, hb2⟩ := List.mem_filter.1 hb
      rcases List.mem_cons.1 (hperm.subset (i.answ b hb1)) with h | h
      · simp [h] at hb2
      · exact h
    shape := by
      rcases hstatus with ⟨h, _⟩ | ⟨h, h'⟩
      · simp only [h]; exact i.shape
      · simp only [h']
        have := i.shape
        rw [h] at this
        obtain ⟨id0, f, c, this⟩ := this
        exact ⟨id0, f, c, [], this, by simp⟩
    canc := fun id' h => List.mem_append_left _ (i.canc id' h)
    cmsg := fun id' h => i.cmsg id' (hmem (.inl rfl) h)
    rej := fun id' h => (i.rej id' h).imp_right (List.mem_append_left _)
    rejn := fun id' h => i.rejn id' (hmem (.inr rfl) h)
    init := by
      rintro ⟨id', enc, h⟩
      rcases hstatus with ⟨hst, hi⟩ | ⟨_, hst⟩
      · simp only [hst]
        rcases List.mem_append.1 h with h | h
        · exact i.init ⟨id', enc, h⟩
        · simp only [List.mem_singleton, Prod.mk.injEq] at h
          cases a with
          | none => cases h.2
          | some a => refine hi enc ?_; have := h.2; cases this; rfl
      · exact .inl hst
    down := fun hd => by
      rcases hstatus with ⟨hst, _⟩ | ⟨_, hst⟩
      · simp only [hst] at hd; exact i.down hd
      · simp only [hst] at hd; cases hd }

theorem Inv.orphan {n : Net T} (i : Inv n) {id : Nat} {r : Request} (hl : n.loop ≠ .running)
    (hw : (id, r) ∈ n.waiting) (ha : ∀ a, (id, a) ∉ n.answered) : Inv { n with panicked := true } :=
  { i with
    panic := fun _ => by
      show n.loop = .crashed
      cases hlo : n.loop with
      | running => exact absurd hlo hl
      | crashed => rfl
      | ended =>
        exfalso
        rcases i.wloc (by simp [hlo]) _ hw with h | h
        · obtain ⟨x, hx, h⟩ := List.mem_map.1 h
          obtain ⟨j, a⟩ := x
          simp only at h
          subst h
          exact ha _ hx
        · rw [(i.ended hlo).1] at h; cases h }

theorem Inv.work {n m : Net T} (i : Inv n) (hn : (msgIds n.read).Nodup) (h : Work n m) : Inv m := by
  cases h with
  | poll e es hp h => exact i.poll h
  | handle env e es hp hl h => exact i.handle env hl h
  | finish id r a hp hw ha => exact i.finish hn hw ha
  | orphan id r hp hl hw ha => exact i.orphan hl hw ha

theorem Work.read {n m : Net T} (h : Work n m) : m.read = n.read := by
  cases h with
  | poll e es hp h => unfold Net.poll; split <;> rfl
  | handle env e es hp hl h => unfold Net.handle; split <;> rfl
  | finish id r a hp hw ha => unfold Net.finish; split <;> rfl
  | orphan id r hp hl hw ha => rfl

theorem receive_read (n : Net T) (m : Msg) : (n.receive m).read = n.read ++ [m] := by
  cases m with
  | notification x => simp only [Net.receive]; split <;> rfl
  | cancel id => 
    simp only [Net.receive, Net.cancel]
    repeat' split
    all_goals rfl
  | request id r => simp only [Net.receive]; split <;> rfl

theorem Reaches.inv {n : Net T} (h : Reaches n) (hn : (msgIds n.read).Nodup) : Inv n := by
  induction h with
  | start => exact .start
  | @step n m h s ih =>
    cases s with
    | receive x hp =>
      rw [receive_read] at hn
      refine (ih ?_).receive x hn
      rw [msgIds_append, List.nodup_append] at hn
      exact hn.1
    | work w =>
      rw [w.read] at hn
      exact (ih hn).work hn w

end Verif.Transport
