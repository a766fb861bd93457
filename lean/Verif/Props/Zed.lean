import Verif.Model.Zed

/-!
# C75: the executable in Zed
-/

namespace Verif.Zed

/-- C75: a path from the settings wins, then the executable on `PATH`; nothing is downloaded or removed then. -/
theorem C75_preferred (e : Env) (cached : Option Path) (p : Path)
    (h : e.path = some p ∨ e.path = none ∧ e.which = some p) :
    command e cached = some (p, e.args.getD ["language-server"]) ∧ (languageServerBinary e cached).effects = [] ∧
    (languageServerBinary e cached).cached = cached := by
  rcases h with h | ⟨h1, h2⟩
  · simp [command, languageServerBinary, h]
  · simp [command, languageServerBinary, h1, h2]

theorem fetch_binary {e : Env} {cached : Option Path} {b : Path × Option (List String)} (h : (fetch e cached).binary = some b) :
    ∃ r, e.latest = some r ∧ b = ((Details.new e.os e.arch r.version).binary, e.args) ∧
      (fetch e cached).cached = some b.1 ∧ ∃ a ∈ r.assets, a.1 = (Details.new e.os e.arch r.version).asset := by
  unfold fetch at h ⊢
  split at h
  · cases h
  · rename_i r hr
    dsimp only at h ⊢
    split at h
    · cases h
    · rename_i a ha
      have ha' : ∃ a ∈ r.assets, a.1 = (Details.new e.os e.arch r.version).asset :=
        ⟨a, List.mem_of_find?_eq_some ha, by simpa using List.find?_some ha⟩
      split at h
      · rename_i hf
        cases h
        rw [if_pos hf]
        exact ⟨r, hr, rfl, rfl, ha'⟩
      · rename_i hf
        split at h
        · cases h
        · rename_i hd
          split at h
          · cases h
          · cases h
            rw [if_neg hf, if_neg hd]
            exact ⟨r, hr, rfl, rfl, ha'⟩

/-- C75: otherwise the executable is the one that was used before in this session, if it is still there, or the one of the
latest release for the platform. -/
theorem C75_downloaded (e : Env) (cached : Option Path) (p : Path) (args : List String) (h1 : e.path = none)
    (h2 : e.which = none) (h : command e cached = some (p, args)) :
    args = e.args.getD ["language-server"] ∧
    ((cached = some p ∧ e.isFile p = true ∧ (languageServerBinary e cached).effects = []) ∨
      ∃ r, e.latest = some r ∧ p = (Details.new e.os e.arch r.version).binary ∧
        (languageServerBinary e cached).cached = some p) := by
  have hf : (fetch e cached).binary.map (fun b => (b.1, b.2.getD ["language-server"])) = some (p, args) →
      args = e.args.getD ["language-server"] ∧ ∃ r, e.latest = some r ∧ p = (Details.new e.os e.arch r.version).binary ∧
        (fetch e cached).cached = some p := by
    intro h
    obtain ⟨b, hb, hp⟩ := Option.map_eq_some_iff.1 h
    obtain ⟨r, hr, hb', hc, -⟩ := fetch_binary hb
    simp only [Prod.mk.injEq] at hp
    rw [hb'] at hp
    refine ⟨hp.2.symm, r, hr, hp.1.symm, ?_⟩
    rw [hc, hb', hp.1]
  simp only [command, languageServerBinary, h1, h2] at h ⊢
  cases cached with
  | none =>
    obtain ⟨ha, hr⟩ := hf h
    exact ⟨ha, .inr hr⟩
  | some c =>
    dsimp only at h ⊢
    split at h
    · rename_i hc
      simp only [Option.map_some, Option.some.injEq, Prod.mk.injEq] at h
      rw [if_pos hc]
      exact ⟨h.2.symm, .inl ⟨by rw [h.1], by rw [← h.1]; exact hc, rfl⟩⟩
    · rename_i hc
      obtain ⟨ha, hr⟩ := hf h
      rw [if_neg hc]
      exact ⟨ha, .inr hr⟩

/-- C75: only directories of other releases are removed, and only after the latest release has been downloaded; what is
downloaded is the archive of that release for the platform, and its executable is started. -/
theorem C75_effects (e : Env) (cached : Option Path) (x : String)
    (h : Effect.remove x ∈ (languageServerBinary e cached).effects) :
    ∃ r url rest, e.latest = some r ∧ x ≠ (Details.new e.os e.arch r.version).dir ∧
      (languageServerBinary e cached).effects =
        .download url (Details.new e.os e.arch r.version).dir (Details.new e.os e.arch r.version).type :: rest ∧
      ((Details.new e.os e.arch r.version).asset, url) ∈ r.assets ∧ e.downloads = true ∧
      (languageServerBinary e cached).binary = some ((Details.new e.os e.arch r.version).binary, e.args) := by
  have hf : Effect.remove x ∈ (fetch e cached).effects →
      ∃ r url rest, e.latest = some r ∧ x ≠ (Details.new e.os e.arch r.version).dir ∧
      (fetch e cached).effects =
        .download url (Details.new e.os e.arch r.version).dir (Details.new e.os e.arch r.version).type :: rest ∧
      ((Details.new e.os e.arch r.version).asset, url) ∈ r.assets ∧ e.downloads = true ∧
      (fetch e cached).binary = some ((Details.new e.os e.arch r.version).binary, e.args) := by
    intro h
    unfold fetch at h ⊢
    split at h
    · cases h
    · rename_i r hr
      dsimp only at h ⊢
      split at h
      · cases h
      · rename_i a ha
        split at h
        · cases h
        · rename_i hi
          split at h
          · simp at h
          · rename_i hd
            split at h
            · simp at h
            · rename_i es hes
              simp only [List.mem_cons, reduceCtorEq, List.mem_map, List.mem_filter, Effect.remove.injEq,
                exists_eq_right, false_or] at h
              have heq : a.1 = (Details.new e.os e.arch r.version).asset := by simpa using List.find?_some ha
              rw [if_neg hi, if_neg hd]
              exact ⟨r, a.2, _, hr, by simpa using h.2, rfl, by rw [← heq]; exact List.mem_of_find?_eq_some ha,
                by simpa using hd, rfl⟩
  unfold languageServerBinary at h ⊢
  split at h
  · cases h
  · split at h
    · cases h
    · split at h
      · split at h
        · cases h
        · rename_i hc
          rw [if_neg hc]
          exact hf h
      · exact hf h

/-- C75: what is started lies inside of what was downloaded: releases for Windows are zip files with the executable at the
top, the others compressed tar files with the executable in a directory that is called like the archive. Different
versions have different directories. -/
theorem C75_inside (os : Os) (arch : Arch) (version : String) :
    (os = .windows → (Details.new os arch version).binary = (Details.new os arch version).dir ++ "/air.exe" ∧
      (Details.new os arch version).type = .zip ∧ ∃ stem, (Details.new os arch version).asset = stem ++ ".zip") ∧
    (os ≠ .windows → (Details.new os arch version).type = .gzipTar ∧
      ∃ stem, (Details.new os arch version).asset = stem ++ ".tar.gz" ∧
        (Details.new os arch version).binary = (Details.new os arch version).dir ++ "/" ++ stem ++ "/air") ∧
    ∀ os' arch' version', (Details.new os arch version).dir = (Details.new os' arch' version').dir → version = version' := by
  refine ⟨?_, ?_, fun os' arch' version' h => ?_⟩
  · rintro rfl
    refine ⟨rfl, rfl, ?_⟩
    cases arch
    · exact ⟨"air-aarch64-pc-windows-msvc", by simp [Details.new]⟩
    · exact ⟨"air-x86-pc-windows-msvc", by simp [Details.new]⟩
    · exact ⟨"air-x86_64-pc-windows-msvc", by simp [Details.new]⟩
  · intro h
    cases os with
    | windows => exact absurd rfl h
    | mac =>
      refine ⟨rfl, ?_⟩
      cases arch
      · exact ⟨"air-aarch64-apple-darwin", by simp [Details.new], by simp [Details.new]⟩
      · exact ⟨"air-x86-apple-darwin", by simp [Details.new], by simp [Details.new]⟩
      · exact ⟨"air-x86_64-apple-darwin", by simp [Details.new], by simp [Details.new]⟩
    | linux =>
      refine ⟨rfl, ?_⟩
      cases arch
      · exact ⟨"air-aarch64-unknown-linux-gnu", by simp [Details.new], by simp [Details.new]⟩
      · exact ⟨"air-x86-unknown-linux-gnu", by simp [Details.new], by simp [Details.new]⟩
      · exact ⟨"air-x86_64-unknown-linux-gnu", by simp [Details.new], by simp [Details.new]⟩
  · have := congrArg String.toList h
    simp only [Details.new, String.toList_append] at this
    exact String.toList_inj.1 (List.append_cancel_left this)

/-- C75: platforms have different archives. -/
theorem C75_assets (os os' : Os) (arch arch' : Arch) (v v' : String)
    (h : (Details.new os arch v).asset = (Details.new os' arch' v').asset) : os = os' ∧ arch = arch' := by
  cases os <;> cases os' <;> cases arch <;> cases arch' <;> first | exact ⟨rfl, rfl⟩ | exact absurd h (by simp [Details.new])

/-- C75 for a session: once an executable has been downloaded, later starts use the same one, without looking for a newer
release, as long as it is there and the user has not installed another one. -/
theorem C75_session (e : Env) (es : List Env) (cached : Option Path) (p : Path)
    (hc : (languageServerBinary e cached).cached = some p)
    (hes : ∀ e' ∈ es, e'.path = none ∧ e'.which = none ∧ e'.isFile p = true) :
    (runAll (e :: es) cached).2 = (languageServerBinary e cached).effects ∧
    (runAll (e :: es) cached).1 = command e cached :: es.map (fun e' => some (p, e'.args.getD ["language-server"])) := by
  have : ∀ es : List Env, (∀ e' ∈ es, e'.path = none ∧ e'.which = none ∧ e'.isFile p = true) →
      runAll es (some p) = (es.map (fun e' => some (p, e'.args.getD ["language-server"])), []) := by
    intro es
    induction es with
    | nil => intro _; rfl
    | cons e es ih =>
      intro h
      obtain ⟨h1, h2, h3⟩ := h e List.mem_cons_self
      have := ih fun e' he' => h e' (List.mem_cons_of_mem _ he')
      simp [runAll, languageServerBinary, command, h1, h2, h3, this]
  simp only [runAll, hc, this es hes, List.append_nil, and_self]

/-! ## Example -/

namespace Ex

/-- Linux without an executable of the user; an old release is there. -/
def env : Env :=
  ⟨none, none, none, fun p => p == "air-0.1.0/air-x86_64-unknown-linux-gnu/air",
    some ⟨"0.2.0", [("air-x86_64-pc-windows-msvc.zip", "u1"), ("air-x86_64-unknown-linux-gnu.tar.gz", "u2")]⟩, .linux, .x8664, true,
    some ["air-0.1.0", "air-0.2.0"]⟩

end Ex

example : command Ex.env none = some ("air-0.2.0/air-x86_64-unknown-linux-gnu/air", ["language-server"]) ∧
    (languageServerBinary Ex.env none).effects = [.download "u2" "air-0.2.0" .gzipTar, .remove "air-0.1.0"] ∧
    (languageServerBinary { Ex.env with which := some "/usr/bin/air" } none).effects = [] := by decide
example : (runAll [Ex.env, { Ex.env with isFile := fun _ => true, args := some ["x"] }] none).1 =
    [some ("air-0.2.0/air-x86_64-unknown-linux-gnu/air", ["language-server"]),
      some ("air-0.2.0/air-x86_64-unknown-linux-gnu/air", ["x"])] := by decide

end Verif.Zed
