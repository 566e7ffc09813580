#!/usr/bin/env python3
"""Prove that statements of theorems are false for an edited model.

usage: refute.py mutants.json refutations.json out.jsonl [id ...]

refutations.json: {mutant id: [{"theorem", "import", "proof"}]}; `proof` is a Lean term of type `False` from `h`, the
statement of the theorem as it reads for the edited model.  In the scratch copy (/tmp/ref) all proofs are left out, so
only definitions and statements are compiled; a refutation counts only if it does not itself depend on a left-out proof.
"""
import json, os, re, subprocess, sys
sys.path.insert(0, os.path.dirname(os.path.abspath(__file__)))
from mutate import TOP, decl_bounds, sorry_out

ROOT = os.path.dirname(os.path.dirname(os.path.abspath(__file__)))
BASE, DST = "/tmp/ref/base", "/tmp/ref/lean"
THM = re.compile(r"^(private |protected |noncomputable |@\[[^\]]*\] ?)*(theorem|lemma|example)\b")
PRE = """def getOk {α : Type} (d : α) : Except Err α → α
  | .ok a => a
  | .error _ => d
def isOk {α : Type} : Except Err α → Bool
  | .ok _ => true
  | .error _ => false
theorem eq_ok {α : Type} (d : α) (x : Except Err α) (h : isOk x = true) : x = .ok (getOk d x) := by
  cases x <;> simp_all [isOk, getOk]
theorem f100 : FillModel fill100 where
  nonneg _ := le_max_left _ _
  le_one _ := max_le zero_le_one (min_le_left _ _)
  empty n hn := max_eq_left ((min_le_right _ _).trans (div_nonpos_of_nonpos_of_nonneg hn (by norm_num)))
theorem exG : ∀ g ∈ [exGroup], (∀ j, 0 ≤ g.dens j) ∧ g.kind.Ok (0 < ·) := by
  intro g hg
  obtain rfl := List.mem_singleton.1 hg
  refine ⟨fun j => ?_, fun t ht j => ?_⟩
  · show (0 : ℚ) ≤ 10
    norm_num
  · show (0 : ℚ) ≤ 1 / 2 ∧ (1 / 2 : ℚ) ≤ 1
    norm_num
theorem nn3 (a b c : ℚ) (ha : 0 ≤ a) (hb : 0 ≤ b) (hc : 0 ≤ c) (r : ℕ) (hr : r < 3) : 0 ≤ (exImg 3 1 [[a], [b], [c]]).px r 0 := by
  have : r = 0 ∨ r = 1 ∨ r = 2 := by omega
  rcases this with rfl | rfl | rfl
  exacts [ha, hb, hc]
theorem row0 (a b c : ℚ) (r : ℕ) (hr : r ≤ 0) (x : ℕ) : (exImg 2 1 [[a], [b]]).px r x = (exImg 2 1 [[a], [c]]).px r x := by
  obtain rfl : r = 0 := by omega
  rfl
def big : Arctic.Group ℚ := ⟨1, fun _ => 1000, .instant fun _ _ => 1 / 2⟩
def roeT : Roe ℚ := .standard [1] true true true false
def z0 : Mat ℚ × Mat Bool := (⟨0, 0, fun _ _ => 0⟩, ⟨0, 0, fun _ _ => false⟩)
def wmOf (m : Mgr ℚ) : WM ℚ 1 := if h : m.s = 1 then h ▸ m.wm else []
def m0 : Mgr ℚ := Mgr.new (s := 1) (fun _ => 0) (.instant fun _ _ => 0) 0
def i0 : Image ℚ := ⟨0, 0, fun _ _ => 0⟩
def cfg0 : ClockCfg ℚ := ⟨⟨0, 0, fun _ _ => 0⟩, ⟨0, 0, fun _ _ => false⟩, ⟨0, 0, fun _ _ => false⟩, [], [], [], [], [], true⟩
def atm0 : ATM ℚ := ⟨[], none, 0, 0⟩
def ccdN (n : ℕ) : CcdView ℚ := ⟨List.replicate n (1 / (n : ℚ)), fun _ => fill100⟩
def roeN (n : ℕ) : Roe ℚ := .standard (List.replicate n 1) true true true false
theorem goodN (n : ℕ) (hn : ∀ x ∈ (ccdN n).fractions, 0 ≤ x) : GoodFill (ccdN n) :=
  ⟨hn, fun _ _ => ⟨f100, fun n hn => lt_max_of_lt_right (lt_min one_pos (div_pos hn (by norm_num)))⟩⟩
theorem el_le (T : WM ℚ 1) (hp : ∀ r ∈ T, 0 < r.vol) (hF : ∀ r ∈ T, ∀ j, 0 ≤ r.fill j ∧ r.fill j ≤ 1) :
    electrons (fun _ => (10 : ℚ)) T ≤ 10 * volSum T := by
  induction T with
  | nil => simp [electrons, volSum]
  | cons r T ih =>
    have := ih (fun x hx => hp x (List.mem_cons_of_mem _ hx)) fun x hx => hF x (List.mem_cons_of_mem _ hx)
    have h1 := hp r (by simp)
    have h2 := (hF r (by simp) 0).2
    simp only [electrons, volSum, List.map_cons, List.sum_cons, Fin.sum_univ_one] at *
    nlinarith
"""


def stub(path):
    lines = open(path).read().split("\n")
    i = len(lines) - 1
    while i >= 0:
        if THM.match(lines[i]):
            a, b = decl_bounds(lines, i)
            if re.match(r"^(noncomputable |private )*example\b", lines[a]):
                new = ["example : True := trivial", ""]
            else:
                new = sorry_out(lines, a, b)
            if new:
                lines[a:b] = new
        i -= 1
    open(path, "w").write("\n".join(lines))


def base():
    subprocess.run(f"rm -rf /tmp/ref; mkdir -p /tmp/ref; cp -a {ROOT}/lean {BASE}", shell=True, check=True)
    for d, _, fs in os.walk(BASE + "/Verif"):
        for f in fs:
            if f.endswith(".lean"):
                stub(os.path.join(d, f))
    r = subprocess.run(["lake", "build", "Verif"], cwd=BASE, capture_output=True, text=True)
    if r.returncode:
        sys.exit("statements do not compile without proofs:\n" + "\n".join(l for l in r.stdout.split("\n") if "error" in l))


def run(m, refs):
    subprocess.run(f"rm -rf {DST}; cp -a {BASE} {DST}", shell=True, check=True)
    for e in m.get("edits") or [m]:
        p = os.path.join(DST, e["file"])
        s = open(p).read()
        if e["old"] not in s:
            return {"id": m["id"], "error": "old text not found"}
        open(p, "w").write(s.replace(e["old"], e["new"], 1))
    res = {"id": m["id"], "refuted": [], "not_refuted": {}}
    for r in refs:
        mod = r["import"]
        b = subprocess.run(["lake", "build", mod], cwd=DST, capture_output=True, text=True)
        if b.returncode:
            res["not_refuted"][r["theorem"]] = "build: " + b.stdout[-800:]
            continue
        src = (f"import {mod}\nimport Verif.Props.ClockExamples\nimport Verif.Spec.Readout\nopen Arctic\nset_option maxRecDepth 100000\n{PRE}"
               f"theorem refutation : ¬ (type_of% @Arctic.{r['theorem']}) := fun h => {r['proof']}\n#print axioms refutation\n")
        open("/tmp/ref/r.lean", "w").write(src)
        c = subprocess.run(["timeout", "600", "lake", "env", "lean", "/tmp/ref/r.lean"], cwd=DST, capture_output=True, text=True)
        if c.returncode == 0 and "sorryAx" not in c.stdout and "refutation" in c.stdout:
            res["refuted"].append(r["theorem"])
        else:
            res["not_refuted"][r["theorem"]] = c.stdout[:1500]
    return res


if __name__ == "__main__":
    muts = {m["id"]: m for m in json.load(open(sys.argv[1]))}
    refs = json.load(open(sys.argv[2]))
    only = set(sys.argv[4:])
    if not os.path.isdir(BASE) or "--base" in only:
        base()
    only.discard("--base")
    for i, rs in refs.items():
        if only and i not in only:
            continue
        res = run(muts[i], rs)
        with open(sys.argv[3], "a") as fh:
            fh.write(json.dumps(res, ensure_ascii=False) + "\n")
        print(i, "refuted", res.get("refuted"), "open", list(res.get("not_refuted", {})), res.get("error", ""), flush=True)
