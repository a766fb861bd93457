import Verif.Model.Discovery
import Verif.Props.Resolver
import Verif.Props.FilePatterns
import Verif.Props.Settings

/-!
# C16: every path uses its nearest air.toml; C47: influence of other paths
-/

namespace Verif.Discovery

open Verif.Resolver (Path Resolver Item)
open Verif.FilePatterns
open Verif.Settings (Settings Toml)

/-! ## Specification -/

/-- The directory has a configuration file. -/
def HasToml (disk : Disk) (dir : Path) : Prop :=
  disk.isFile (dir ++ ["air.toml"]) = true ∨ disk.isFile (dir ++ [".air.toml"]) = true

/-- `dir` is the innermost directory among `path` and its ancestors that has a configuration file. -/
def Nearest (disk : Disk) (path dir : Path) : Prop :=
  dir ≠ [] ∧ dir <+: path ∧ HasToml disk dir ∧
    ∀ d, d ≠ [] → d <+: path → HasToml disk d → d.length ≤ dir.length

/-- The settings written in a directory's configuration file; `air.toml` wins over `.air.toml`. -/
def SettingsIn (compile : Path → List String → Option FilePatterns) (disk : Disk) (dir : Path) :
    Option Settings :=
  if disk.isFile (dir ++ ["air.toml"]) then
    (disk.readToml (dir ++ ["air.toml"])).bind fun doc => Settings.load compile doc dir
  else
    (disk.readToml (dir ++ [".air.toml"])).bind fun doc => Settings.load compile doc dir

/-! ## Ancestors -/

theorem ancestors_concat (p : Path) (c : String) :
    ancestors (p ++ [c]) = (p ++ [c]) :: ancestors p := by
  induction p with
  | nil => rfl
  | cons d p ih => simp [ancestors, ih]

theorem path_cases (p : Path) : p = [] ∨ ∃ q c, p = q ++ [c] := by
  cases p with
  | nil => exact .inl rfl
  | cons d p => exact .inr ⟨(d :: p).dropLast, (d :: p).getLast (by simp), by
      rw [List.dropLast_concat_getLast]⟩

theorem path_induction {P : Path → Prop} (nil : P []) (snoc : ∀ q c, P q → P (q ++ [c])) (p : Path) :
    P p := by
  generalize hn : p.length = n
  induction n generalizing p with
  | zero => rw [List.length_eq_zero_iff.mp hn]; exact nil
  | succ n ih =>
    rcases path_cases p with rfl | ⟨q, c, rfl⟩
    · exact nil
    · exact snoc q c (ih q (by simpa using hn))

theorem nearest_unique {disk : Disk} {p d e : Path} (h1 : Nearest disk p d) (h2 : Nearest disk p e) :
    d = e := by
  have hl : d.length = e.length :=
    Nat.le_antisymm (h2.2.2.2 d h1.1 h1.2.1 h1.2.2.1) (h1.2.2.2 e h2.1 h2.2.1 h2.2.2.1)
  have := List.prefix_of_prefix_length_le h1.2.1 h2.2.1 (by omega)
  exact this.eq_of_length hl

theorem prefix_concat {q p : Path} {c : String} (h : q <+: p ++ [c]) : q <+: p ∨ q = p ++ [c] := by
  by_cases hl : q.length ≤ p.length
  · exact .inl (List.prefix_of_prefix_length_le h (List.prefix_append p [c]) hl)
  · refine .inr (h.eq_of_length ?_)
    have := h.length_le
    simp at this ⊢
    omega

theorem nearest_self {disk : Disk} {p : Path} (hne : p ≠ []) (h : HasToml disk p) :
    Nearest disk p p :=
  ⟨hne, List.prefix_refl p, h, fun _ _ hd _ => hd.length_le⟩

theorem nearest_concat {disk : Disk} {p d : Path} {c : String} (h : ¬ HasToml disk (p ++ [c])) :
    Nearest disk (p ++ [c]) d ↔ Nearest disk p d := by
  constructor
  · rintro ⟨h1, h2, h3, h4⟩
    rcases prefix_concat h2 with h2 | rfl
    · exact ⟨h1, h2, h3, fun e e1 e2 e3 => h4 e e1 (e2.trans (List.prefix_append p [c])) e3⟩
    · exact absurd h3 h
  · rintro ⟨h1, h2, h3, h4⟩
    refine ⟨h1, h2.trans (List.prefix_append p [c]), h3, ?_⟩
    intro e e1 e2 e3
    rcases prefix_concat e2 with e2 | rfl
    · exact h4 e e1 e2 e3
    · exact absurd e3 h

theorem exists_nearest {disk : Disk} {p : Path}
    (h : ∃ d, d ≠ [] ∧ d <+: p ∧ HasToml disk d) : ∃ d, Nearest disk p d := by
  induction p using path_induction with
  | nil => obtain ⟨d, h1, h2, _⟩ := h; exact absurd (List.prefix_nil.mp h2) h1
  | snoc p c ih =>
    by_cases hT : HasToml disk (p ++ [c])
    · exact ⟨_, nearest_self (by simp) hT⟩
    · obtain ⟨d, h1, h2, h3⟩ := h
      rcases prefix_concat h2 with h2 | rfl
      · obtain ⟨e, he⟩ := ih ⟨d, h1, h2, h3⟩
        exact ⟨e, (nearest_concat hT).mpr he⟩
      · exact absurd h3 hT

theorem find_isSome {disk : Disk} {dir : Path} :
    (∃ t, findAirTomlInDirectory disk dir = some t) ↔ HasToml disk dir := by
  simp only [findAirTomlInDirectory, HasToml]
  split
  · simp [*]
  · split
    · simp [*]
    · simp [*]

theorem parse_eq {compile : Path → List String → Option FilePatterns} {disk : Disk} {dir t : Path}
    (h : findAirTomlInDirectory disk dir = some t) :
    parseSettings compile disk t dir = SettingsIn compile disk dir := by
  simp only [findAirTomlInDirectory] at h
  split at h
  · cases h; simp only [SettingsIn, parseSettings, if_pos, *]; rfl
  · split at h
    · cases h; simp only [SettingsIn, parseSettings, *]; rfl
    · cases h

/-! ## The loops -/

section
variable (compile : Path → List String → Option FilePatterns) (disk : Disk)

/-- Invariant of the search. -/
structure Inv (seen : List Path) (acc : List (Path × Settings)) : Prop where
  /-- the configuration of every directory seen has been found -/
  complete : ∀ q ∈ seen, ∀ d, Nearest disk q d → d ∈ acc.map Prod.fst
  /-- what has been found is right -/
  sound : ∀ e ∈ acc, SettingsIn compile disk e.1 = some e.2 ∧ e.1 ∈ seen
  nodup : (acc.map Prod.fst).Nodup

/-- Invariant inside of the walk up: directories already passed have the same configuration as the
current one. -/
structure Inv' (p : Path) (seen : List Path) (acc : List (Path × Settings)) : Prop where
  complete : ∀ q ∈ seen, (∀ d, Nearest disk q d → d ∈ acc.map Prod.fst) ∨
    p.length < q.length ∧ ∀ d, Nearest disk q d ↔ Nearest disk p d
  sound : ∀ e ∈ acc, SettingsIn compile disk e.1 = some e.2 ∧ e.1 ∈ seen
  nodup : (acc.map Prod.fst).Nodup

theorem Inv'.close {p : Path} {seen : List Path} {acc : List (Path × Settings)}
    (h : Inv' compile disk p seen acc) (hp : ∀ d, Nearest disk p d → d ∈ acc.map Prod.fst) :
    Inv compile disk seen acc := by
  refine ⟨?_, h.sound, h.nodup⟩
  intro q hq d hd
  rcases h.complete q hq with h1 | ⟨_, h2⟩
  · exact h1 d hd
  · exact hp d ((h2 d).mp hd)

/-- The outcome of walking up from `p`. -/
theorem visit_aux (p : Path) (seen : List Path) (acc : List (Path × Settings))
    (h : Inv' compile disk p seen acc) :
    (visitAncestors (findAirTomlInDirectory disk) (parseSettings compile disk) (ancestors p) seen acc
        = none ∧ ∃ d, Nearest disk p d ∧ SettingsIn compile disk d = none) ∨
    ∃ seen' acc',
      visitAncestors (findAirTomlInDirectory disk) (parseSettings compile disk) (ancestors p) seen acc
        = some (seen', acc') ∧ Inv compile disk seen' acc' ∧
      (∀ d, Nearest disk p d → d ∈ acc'.map Prod.fst) ∧
      (∀ e, e ∈ acc' → e ∈ acc ∨ Nearest disk p e.1) ∧ (∀ e ∈ acc, e ∈ acc') := by
  induction p using path_induction generalizing seen with
  | nil =>
    have h0 : ∀ d, Nearest disk [] d → d ∈ acc.map Prod.fst := by
      rintro d ⟨h1, h2, _⟩
      exact absurd (List.prefix_nil.mp h2) h1
    exact .inr ⟨seen, acc, rfl, h.close compile disk h0, h0, fun e he => .inl he, fun e he => he⟩
  | snoc p c ih =>
    rw [ancestors_concat]
    simp only [visitAncestors]
    by_cases hseen : seen.contains (p ++ [c]) = true
    · rw [if_pos hseen]
      have hm : p ++ [c] ∈ seen := by simpa using hseen
      have h0 : ∀ d, Nearest disk (p ++ [c]) d → d ∈ acc.map Prod.fst := by
        rcases h.complete _ hm with h1 | ⟨h1, _⟩
        · exact h1
        · omega
      exact .inr ⟨seen, acc, rfl, h.close compile disk h0, h0, fun e he => .inl he, fun e he => he⟩
    · rw [if_neg hseen]
      have hnm : p ++ [c] ∉ seen := by simpa using hseen
      cases hf : findAirTomlInDirectory disk (p ++ [c]) with
      | some t =>
        have hT : HasToml disk (p ++ [c]) := find_isSome.mp ⟨t, hf⟩
        have hN := nearest_self (by simp) hT
        simp only [parse_eq hf]
        cases hs : SettingsIn compile disk (p ++ [c]) with
        | none => exact .inl ⟨rfl, _, hN, hs⟩
        | some s =>
          refine .inr ⟨_, _, rfl, ⟨?_, ?_, ?_⟩, ?_, ?_, ?_⟩
          · intro q hq d hd
            rcases List.mem_cons.mp hq with rfl | hq
            · rw [nearest_unique hd hN]; simp
            · rcases h.complete q hq with h1 | ⟨_, h1⟩
              · have := h1 d hd
                simp only [List.map_append, List.mem_append]; exact .inl this
              · rw [nearest_unique ((h1 d).mp hd) hN]; simp
          · intro e he
            rcases List.mem_append.mp he with he | he
            · exact ⟨(h.sound e he).1, List.mem_cons_of_mem _ (h.sound e he).2⟩
            · simp only [List.mem_singleton] at he
              subst he; exact ⟨hs, by simp⟩
          · rw [List.map_append, List.nodup_append]
            refine ⟨h.nodup, by simp, ?_⟩
            intro a ha b hb hab
            simp only [List.map_cons, List.map_nil, List.mem_singleton] at hb
            obtain ⟨e, he, rfl⟩ := List.mem_map.mp ha
            rw [hb] at hab
            exact hnm (hab ▸ (h.sound e he).2)
          · intro d hd; rw [nearest_unique hd hN]; simp
          · intro e he
            rcases List.mem_append.mp he with he | he
            · exact .inl he
            · simp only [List.mem_singleton] at he
              subst he; exact .inr hN
          · intro e he; exact List.mem_append_left _ he
      | none =>
        have hnT : ¬ HasToml disk (p ++ [c]) := by
          rw [← find_isSome]; simp [hf]
        have hinv : Inv' compile disk p ((p ++ [c]) :: seen) acc := by
          refine ⟨?_, fun e he => ⟨(h.sound e he).1, List.mem_cons_of_mem _ (h.sound e he).2⟩, h.nodup⟩
          intro q hq
          rcases List.mem_cons.mp hq with rfl | hq
          · exact .inr ⟨by simp, fun d => nearest_concat hnT⟩
          · rcases h.complete q hq with h1 | ⟨h1, h2⟩
            · exact .inl h1
            · refine .inr ⟨by simp at h1; omega, fun d => (h2 d).trans (nearest_concat hnT)⟩
        rcases ih _ hinv with ⟨h1, d, h2, h3⟩ | ⟨seen', acc', h1, h2, h3, h4, h5⟩
        · exact .inl ⟨h1, d, (nearest_concat hnT).mpr h2, h3⟩
        · exact .inr ⟨seen', acc', h1, h2, fun d hd => h3 d ((nearest_concat hnT).mp hd),
            fun e he => (h4 e he).imp id (nearest_concat hnT).mpr, h5⟩

theorem Inv.open {p : Path} {seen : List Path} {acc : List (Path × Settings)}
    (h : Inv compile disk seen acc) : Inv' compile disk p seen acc :=
  ⟨fun q hq => .inl (h.complete q hq), h.sound, h.nodup⟩

theorem discoverGo_spec (paths : List Path) (seen : List Path) (acc : List (Path × Settings))
    (h : Inv compile disk seen acc) :
    (discoverGo (findAirTomlInDirectory disk) (parseSettings compile disk) paths seen acc = none ∧
      ∃ p ∈ paths, ∃ d, Nearest disk p d ∧ SettingsIn compile disk d = none) ∨
    ∃ acc',
      discoverGo (findAirTomlInDirectory disk) (parseSettings compile disk) paths seen acc = some acc' ∧
      (∀ e ∈ acc', SettingsIn compile disk e.1 = some e.2) ∧ (acc'.map Prod.fst).Nodup ∧
      (∀ p ∈ paths, ∀ d, Nearest disk p d → d ∈ acc'.map Prod.fst) ∧
      (∀ e ∈ acc', e ∈ acc ∨ ∃ p ∈ paths, Nearest disk p e.1) ∧ (∀ e ∈ acc, e ∈ acc') := by
  induction paths generalizing seen acc with
  | nil =>
    exact .inr ⟨acc, rfl, fun e he => (h.sound e he).1, h.nodup, by simp, fun e he => .inl he,
      fun e he => he⟩
  | cons p ps ih =>
    simp only [discoverGo]
    rcases visit_aux compile disk p seen acc (h.open compile disk) with
      ⟨h1, d, h2, h3⟩ | ⟨seen', acc', h1, h2, h3, h4, h5⟩
    · rw [h1]; exact .inl ⟨rfl, p, by simp, d, h2, h3⟩
    · rw [h1]
      rcases ih seen' acc' h2 with ⟨g1, q, hq, d, g2, g3⟩ | ⟨acc'', g1, g2, g3, g4, g5, g6⟩
      · exact .inl ⟨g1, q, by simp [hq], d, g2, g3⟩
      · refine .inr ⟨acc'', g1, g2, g3, ?_, ?_, fun e he => g6 e (h5 e he)⟩
        · intro q hq d hd
          rcases List.mem_cons.mp hq with rfl | hq
          · obtain ⟨e, he, rfl⟩ := List.mem_map.mp (h3 d hd)
            exact List.mem_map.mpr ⟨e, g6 e he, rfl⟩
          · exact g4 q hq d hd
        · intro e he
          rcases g5 e he with he | ⟨q, hq, hd⟩
          · rcases h4 e he with he | hd
            · exact .inl he
            · exact .inr ⟨p, by simp, hd⟩
          · exact .inr ⟨q, by simp [hq], hd⟩

/-- C16: discovery finds exactly the nearest configuration of each of the paths, each once, with the
settings written there; it fails exactly if one of these is invalid. -/
theorem C16_discovered (paths : List Path) :
    (discoverSettings compile disk paths = none ↔
      ∃ p ∈ paths, ∃ d, Nearest disk p d ∧ SettingsIn compile disk d = none) ∧
    ∀ found, discoverSettings compile disk paths = some found →
      (found.map Prod.fst).Nodup ∧
      ∀ d s, (d, s) ∈ found ↔
        (∃ p ∈ paths, Nearest disk p d) ∧ SettingsIn compile disk d = some s := by
  have h0 : Inv compile disk [] [] := ⟨by simp, by simp, by simp⟩
  rcases discoverGo_spec compile disk paths [] [] h0 with ⟨h1, h2⟩ | ⟨acc, h1, h2, h3, h4, h5, _⟩
  · refine ⟨⟨fun _ => h2, fun _ => h1⟩, ?_⟩
    intro found hf
    rw [discoverSettings, h1] at hf
    cases hf
  · refine ⟨⟨fun h => by (rw [discoverSettings, h1] at h; cases h), ?_⟩, ?_⟩
    · rintro ⟨p, hp, d, hd, hs⟩
      obtain ⟨e, he, rfl⟩ := List.mem_map.mp (h4 p hp d hd)
      rw [h2 e he] at hs
      cases hs
    · intro found hf
      rw [discoverSettings, h1] at hf
      cases hf
      refine ⟨h3, fun d s => ⟨fun hm => ?_, ?_⟩⟩
      · rcases h5 _ hm with h | h
        · cases h
        · exact ⟨h, h2 _ hm⟩
      · rintro ⟨⟨p, hp, hd⟩, hs⟩
        obtain ⟨e, he, rfl⟩ := List.mem_map.mp (h4 p hp d hd)
        have := h2 e he
        rw [hs] at this
        cases this
        exact he

end

/-! ## The resolver built from the discovered settings -/

theorem foldl_rep (l : List (Path × Settings)) (r : Resolver Settings) (m : Path → Option Settings)
    (h : Resolver.Rep r m) :
    Resolver.Rep (l.foldl (fun r d => (Resolver.add r d.1 d.2).1) r)
      (l.foldl (fun m d => fun p => if p = d.1 then some d.2 else m p) m) ∧
    (l.foldl (fun r d => (Resolver.add r d.1 d.2).1) r).fallback = r.fallback := by
  induction l generalizing r m with
  | nil => exact ⟨h, rfl⟩
  | cons d l ih =>
    obtain ⟨h1, _, h2⟩ := Resolver.step_rep r m h (.add d.1 d.2)
    obtain ⟨h3, h4⟩ := ih _ _ h1
    exact ⟨h3, h4.trans h2⟩

theorem foldl_map {l : List (Path × Settings)} (hn : (l.map Prod.fst).Nodup)
    (m : Path → Option Settings) (p : Path) (s : Settings) :
    l.foldl (fun m d => fun p => if p = d.1 then some d.2 else m p) m p = some s ↔
      (p, s) ∈ l ∨ p ∉ l.map Prod.fst ∧ m p = some s := by
  induction l generalizing m with
  | nil => simp
  | cons d l ih =>
    obtain ⟨q, t⟩ := d
    simp only [List.map_cons, List.nodup_cons] at hn
    rw [List.foldl_cons, ih hn.2]
    by_cases hp : p = q
    · subst hp
      have hnot : ∀ s, (p, s) ∉ l := fun s hm => hn.1 (List.mem_map.mpr ⟨_, hm, rfl⟩)
      simp [hnot, hn.1]
      exact eq_comm
    · simp [hp]

theorem buildResolver_rep {found : List (Path × Settings)} (hn : (found.map Prod.fst).Nodup) :
    ∃ m, Resolver.Rep (buildResolver found) m ∧ (∀ p s, m p = some s ↔ (p, s) ∈ found) ∧
      (buildResolver found).fallback = Settings.default := by
  obtain ⟨h1, h2⟩ := foldl_rep found (Resolver.new Settings.default) _ (Resolver.new_rep _)
  exact ⟨_, h1, fun p s => by rw [foldl_map hn]; simp, h2⟩

/-- C16: after discovery, each of the given paths gets the settings of the nearest directory with a
configuration file, or the defaults if there is none. -/
theorem C16_nearest_settings (compile : Path → List String → Option FilePatterns) (disk : Disk)
    (paths : List Path) (found : List (Path × Settings))
    (h : discoverSettings compile disk paths = some found) (p : Path) (hp : p ∈ paths) :
    (∀ d, Nearest disk p d →
      SettingsIn compile disk d = some (Resolver.resolveOrFallback (buildResolver found) p)) ∧
    ((∀ d, ¬ Nearest disk p d) →
      Resolver.resolveOrFallback (buildResolver found) p = Settings.default) := by
  obtain ⟨hn, hf⟩ := (C16_discovered compile disk paths).2 found h
  obtain ⟨m, ⟨hs, hm⟩, hmf, hfb⟩ := buildResolver_rep hn
  constructor
  · intro d hd
    have hex : ∃ s, SettingsIn compile disk d = some s := by
      cases hsd : SettingsIn compile disk d with
      | some s => exact ⟨s, rfl⟩
      | none =>
        have := (C16_discovered compile disk paths).1.mpr ⟨p, hp, d, hd, hsd⟩
        rw [this] at h; cases h
    obtain ⟨s, hsd⟩ := hex
    have : Resolver.resolve (buildResolver found) p = some ⟨d, s⟩ := by
      rw [Resolver.resolve_eq_some_iff _ hs]
      refine ⟨(hm d s).mpr ((hmf d s).mpr ((hf d s).mpr ⟨⟨p, hp, hd⟩, hsd⟩)), hd.2.1, ?_⟩
      intro d' v' hm' hpre
      obtain ⟨⟨q, _, hq⟩, _⟩ := (hf d' v').mp ((hmf d' v').mp ((hm d' v').mp hm'))
      exact hd.2.2.2 d' hq.1 hpre hq.2.2.1
    rw [Resolver.resolveOrFallback, this, hsd]
  · intro hno
    have : Resolver.resolve (buildResolver found) p = none := by
      rw [Resolver.resolve_eq_none_iff]
      intro d v hm' hpre
      obtain ⟨⟨q, _, hq⟩, _⟩ := (hf d v).mp ((hmf d v).mp ((hm d v).mp hm'))
      -- an ancestor of `p` with a configuration file exists, so a nearest one does
      exact absurd hpre (fun hpre => by
        have : ∃ d, Nearest disk p d := exists_nearest ⟨d, hq.1, hpre, hq.2.2.1⟩
        obtain ⟨d, hd⟩ := this
        exact hno d hd)
    rw [Resolver.resolveOrFallback, this, hfb]

/-- C16: the order (and multiplicity) in which paths are given is irrelevant to the settings of any
file. -/
theorem C16_order_irrelevant (compile : Path → List String → Option FilePatterns) (disk : Disk)
    (paths paths' : List Path) (hsame : ∀ p, p ∈ paths ↔ p ∈ paths') :
    (discoverSettings compile disk paths = none ↔ discoverSettings compile disk paths' = none) ∧
    ∀ found found', discoverSettings compile disk paths = some found →
      discoverSettings compile disk paths' = some found' →
      ∀ f, Resolver.resolve (buildResolver found) f = Resolver.resolve (buildResolver found') f := by
  constructor
  · rw [(C16_discovered compile disk paths).1, (C16_discovered compile disk paths').1]
    constructor <;> (rintro ⟨p, hp, h⟩; exact ⟨p, by simpa [hsame] using hp, h⟩)
  · intro found found' h h' f
    obtain ⟨hn, hf⟩ := (C16_discovered compile disk paths).2 found h
    obtain ⟨hn', hf'⟩ := (C16_discovered compile disk paths').2 found' h'
    obtain ⟨m, ⟨hs, hm⟩, hmf, _⟩ := buildResolver_rep hn
    obtain ⟨m', ⟨hs', hm'⟩, hmf', _⟩ := buildResolver_rep hn'
    have hiff : ∀ d s, (⟨d, s⟩ : Item Settings) ∈ (buildResolver found).items ↔
        ⟨d, s⟩ ∈ (buildResolver found').items := by
      intro d s
      rw [hm, hm', hmf, hmf', hf, hf']
      simp only [hsame]
    have hopt : ∀ a b : Option (Item Settings), (∀ x, a = some x ↔ b = some x) → a = b := by
      intro a b hab
      cases a with
      | some x => exact ((hab x).mp rfl).symm
      | none => cases b with
        | none => rfl
        | some y => exact (hab y).mpr rfl
    apply hopt
    rintro ⟨d, s⟩
    rw [Resolver.resolve_eq_some_iff _ hs, Resolver.resolve_eq_some_iff _ hs']
    simp only [hiff]

/-! ## Influence of the other paths on a file -/

theorem nearest_mono {disk : Disk} {r f d : Path} (hrf : r <+: f) (hd : Nearest disk f d)
    (hdr : d <+: r) : Nearest disk r d :=
  ⟨hd.1, hdr, hd.2.2.1, fun e h1 h2 h3 => hd.2.2.2 e h1 (h2.trans hrf) h3⟩

/-- C47 (partial: the claim without the hypothesis `hno` is false, see
`C47_other_paths_matter`): the settings of a file found below the given path `r` are the same as if
only `r` had been given, unless the configuration of some other given path lies between `r` and the
file. -/
theorem C47_other_paths_partial (compile : Path → List String → Option FilePatterns) (disk : Disk)
    (paths : List Path) (r f : Path) (hr : r ∈ paths) (hrf : r <+: f)
    (hno : ∀ p ∈ paths, ∀ d, Nearest disk p d → d <+: f → d <+: r)
    (found found' : List (Path × Settings))
    (h : discoverSettings compile disk paths = some found)
    (h' : discoverSettings compile disk [r] = some found') :
    Resolver.resolveOrFallback (buildResolver found) f =
      Resolver.resolveOrFallback (buildResolver found') f := by
  obtain ⟨hn, hf⟩ := (C16_discovered compile disk paths).2 found h
  obtain ⟨hn', hf'⟩ := (C16_discovered compile disk [r]).2 found' h'
  obtain ⟨m, ⟨hs, hm⟩, hmf, hfb⟩ := buildResolver_rep hn
  obtain ⟨m', ⟨hs', hm'⟩, hmf', hfb'⟩ := buildResolver_rep hn'
  have hres : ∀ d v, Resolver.resolve (buildResolver found') f = some ⟨d, v⟩ →
      Resolver.resolve (buildResolver found) f = some ⟨d, v⟩ := by
    intro d v hd
    rw [Resolver.resolve_eq_some_iff _ hs'] at hd
    rw [Resolver.resolve_eq_some_iff _ hs]
    obtain ⟨⟨q, hq, hqd⟩, hv⟩ := (hf' d v).mp ((hmf' d v).mp ((hm' d v).mp hd.1))
    simp only [List.mem_singleton] at hq
    subst hq
    refine ⟨(hm d v).mpr ((hmf d v).mpr ((hf d v).mpr ⟨⟨q, hr, hqd⟩, hv⟩)), hd.2.1, ?_⟩
    intro e w he hef
    obtain ⟨⟨p, hp, hpe⟩, _⟩ := (hf e w).mp ((hmf e w).mp ((hm e w).mp he))
    exact hqd.2.2.2 e hpe.1 (hno p hp e hpe hef) hpe.2.2.1
  unfold Resolver.resolveOrFallback
  cases hc : Resolver.resolve (buildResolver found') f with
  | some i => rw [hres i.path i.value hc]
  | none =>
    have : Resolver.resolve (buildResolver found) f = none := by
      rw [Resolver.resolve_eq_none_iff] at hc ⊢
      intro e w he hef
      obtain ⟨⟨p, hp, hpe⟩, _⟩ := (hf e w).mp ((hmf e w).mp ((hm e w).mp he))
      have her := hno p hp e hpe hef
      obtain ⟨d, hd⟩ := exists_nearest (disk := disk) ⟨e, hpe.1, her, hpe.2.2.1⟩
      have hsd : ∃ v, SettingsIn compile disk d = some v := by
        cases hsd : SettingsIn compile disk d with
        | some v => exact ⟨v, rfl⟩
        | none =>
          have := (C16_discovered compile disk [r]).1.mpr ⟨r, by simp, d, hd, hsd⟩
          rw [this] at h'; cases h'
      obtain ⟨v, hv⟩ := hsd
      exact hc d v ((hm' d v).mpr ((hmf' d v).mpr ((hf' d v).mpr ⟨⟨r, by simp, hd⟩, hv⟩)))
        (hd.2.1.trans hrf)
    rw [this, hfb, hfb']

/-- A project with a configuration at its root (`line-width = 100`) and another one in a
subdirectory (`line-width = 60`). -/
def exDisk : Disk where
  isFile p := p == ["/", "p", "air.toml"] || p == ["/", "p", "sub", ".air.toml"]
  readToml p :=
    if p == ["/", "p", "air.toml"] then some [("format", .table [("line-width", .int 100)])]
    else some [("format", .table [("line-width", .int 60)])]

def exCompile (root : Path) (_ : List String) : Option FilePatterns :=
  some ⟨root, true, fun _ _ => .none⟩

def widthOf (paths : List Path) (f : Path) : Option Nat :=
  (discoverSettings exCompile exDisk paths).map fun found =>
    (Resolver.resolveOrFallback (buildResolver found) f).lineWidth

/-- C47 is false: whether `/p/sub/a.R`, found below `/p`, is formatted with the root configuration or
with the nested one depends on whether some other path below `/p/sub` is given too. -/
theorem C47_other_paths_matter :
    widthOf [["/", "p"]] ["/", "p", "sub", "a.R"] = some 100 ∧
    widthOf [["/", "p"], ["/", "p", "sub", "b.R"]] ["/", "p", "sub", "a.R"] = some 60 := by
  decide +kernel

example : Nearest exDisk ["/", "p", "sub", "b.R"] ["/", "p", "sub"] :=
  ⟨by decide, by decide, .inr (by decide), by
    intro d _ h2 h3
    by_cases hd : d = ["/", "p", "sub", "b.R"]
    · subst hd; exact absurd h3 (by simp [HasToml, exDisk])
    · have h4 : d.length < 4 := by
        have := h2.length_le
        have hne : d.length ≠ 4 := fun h => hd (h2.eq_of_length h)
        simp only [List.length_cons, List.length_nil] at this
        omega
      simp; omega⟩

example : widthOf [["/", "p", "sub", "b.R"], ["/", "q"], ["/", "p", "sub"]] ["/", "q"] = some 80 ∧
    widthOf [["/", "p", "sub", "b.R"], ["/", "p", "x", "c.R"]] ["/", "p", "x", "c.R"] = some 100 := by
  decide +kernel

theorem find_sorted {α : Type} {f : Path → Option α} {x : α} : ∀ {l : List Path},
    l.Pairwise (fun a b => b.length < a.length) →
    (l.findSome? f = some x ↔ ∃ d ∈ l, f d = some x ∧ ∀ e ∈ l, (f e).isSome → e.length ≤ d.length)
  | [], _ => by simp
  | a :: l, h => by
    have ha := (List.pairwise_cons.1 h).1
    have ih := find_sorted (f := f) (x := x) (List.pairwise_cons.1 h).2
    rw [List.findSome?_cons]
    cases hf : f a with
    | some y =>
      simp only [Option.some.injEq, List.mem_cons, exists_eq_or_imp, forall_eq_or_imp]
      constructor
      · rintro rfl
        exact .inl ⟨hf, fun _ => Nat.le_refl _, fun e he _ => Nat.le_of_lt (ha e he)⟩
      · rintro (⟨h1, _⟩ | ⟨d, hd, _, h2, _⟩)
        · rw [hf] at h1; exact Option.some.inj h1
        · have := h2 (by simp [hf])
          have := ha d hd
          omega
    | none =>
      simp only [ih, List.mem_cons, exists_eq_or_imp, forall_eq_or_imp, hf]
      simp

/-- C16: `find_air_toml` finds the configuration file of the innermost directory that has one; of two in the same directory it is
`air.toml`. -/
theorem C16_find (disk : Disk) (path toml : Path) : findAirToml disk path = some toml ↔
    ∃ dir, Nearest disk path dir ∧
      (toml = dir ++ ["air.toml"] ∧ disk.isFile (dir ++ ["air.toml"]) = true ∨
        toml = dir ++ [".air.toml"] ∧ disk.isFile (dir ++ ["air.toml"]) = false) := by
  have some_iff : ∀ d, (findAirTomlInDirectory disk d).isSome = true ↔ HasToml disk d := by
    intro d
    unfold findAirTomlInDirectory HasToml
    split
    · simp [*]
    · split <;> simp [*]
  have eq_iff : ∀ d, findAirTomlInDirectory disk d = some toml ↔ HasToml disk d ∧
      (toml = d ++ ["air.toml"] ∧ disk.isFile (d ++ ["air.toml"]) = true ∨
        toml = d ++ [".air.toml"] ∧ disk.isFile (d ++ ["air.toml"]) = false) := by
    intro d
    unfold findAirTomlInDirectory HasToml
    by_cases h1 : disk.isFile (d ++ ["air.toml"]) = true
    · rw [if_pos h1]
      simp only [h1, Option.some.injEq, true_or, true_and, and_true, Bool.true_eq_false, and_false, or_false]
      exact eq_comm
    · rw [if_neg h1]
      rw [Bool.not_eq_true] at h1
      by_cases h2 : disk.isFile (d ++ [".air.toml"]) = true
      · rw [if_pos h2]
        simp only [h1, h2, Option.some.injEq, or_true, true_and, and_true, Bool.false_eq_true, and_false, false_or]
        exact eq_comm
      · rw [if_neg h2]
        simp [h1, h2]
  unfold findAirToml Nearest
  rw [find_sorted (ancestors_pairwise path)]
  simp only [mem_ancestors, some_iff, eq_iff]
  constructor
  · rintro ⟨d, ⟨h1, h2⟩, ⟨h3, h4⟩, h5⟩
    exact ⟨d, ⟨h1, h2, h3, fun e he hp ht => h5 e ⟨he, hp⟩ ht⟩, h4⟩
  · rintro ⟨d, ⟨h1, h2, h3, h5⟩, h4⟩
    exact ⟨d, ⟨h1, h2⟩, ⟨h3, h4⟩, fun e he ht => h5 e he.1 he.2 ht⟩

example : findAirToml exDisk ["/", "p", "sub", "b.R"] = some ["/", "p", "sub", ".air.toml"] ∧
    findAirToml exDisk ["/", "p", "x", "c.R"] = some ["/", "p", "air.toml"] ∧ findAirToml exDisk ["/", "q"] = none := by decide +kernel

end Verif.Discovery
