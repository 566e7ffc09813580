#!/usr/bin/env python3
"""Mutation test: apply an edit to a model definition in a scratch copy and see which theorems still prove.

usage: mutate.py mutants.json out.jsonl [id ...]

mutants.json is a list of {"id", "file", "def", "old", "new", "claim", "expect"}.  The scratch copy is /tmp/mut/lean.
Proofs that fail are replaced by `sorry` and the build goes on; at the end the theorems of Verif/Props that depend
on `sorry` have failed, the others have survived.  (`sorry` is used only in the scratch copy.)
"""
import json, os, re, subprocess, sys, shutil, time

SRC, DST = "/tmp/mut/base", "/tmp/mut/lean"
DECL = re.compile(r"^(private |protected |noncomputable |@\[[^\]]*\] ?)*(theorem|lemma|example|def|instance|structure|inductive|abbrev)\b")
TOP = re.compile(r"^(/--|/-!|end\b|section\b|namespace\b|variable|open\b|set_option|#|@\[|private |protected |noncomputable |theorem|lemma|example|def|instance|structure|inductive|abbrev)")


def sync():
    os.makedirs("/tmp/mut", exist_ok=True)
    subprocess.run(["rsync", "-a", "--delete", SRC + "/", DST + "/"], check=True) if shutil.which("rsync") else \
        subprocess.run(f"rm -rf {DST}; cp -a {SRC} {DST}", shell=True, check=True)


def decl_bounds(lines, ln):
    a = min(ln, len(lines) - 1)
    while a >= 0 and not DECL.match(lines[a]):
        a -= 1
    b = a + 1
    while b < len(lines) and not TOP.match(lines[b]):
        b += 1
    return a, b


def sorry_out(lines, a, b):
    text = "\n".join(lines[a:b])
    depth = 0
    i = 0
    cut = None
    while i < len(text):
        ch = text[i]
        if ch in "([{⟨":
            depth += 1
        elif ch in ")]}⟩":
            depth -= 1
        elif depth == 0 and text.startswith(":=", i):
            # skip `let x := ...` inside a statement
            line = text[text.rfind("\n", 0, i) + 1:i]
            if not re.search(r"\blet\b[^;]*$", line):
                cut = i
                break
        elif depth == 0 and re.match(r"\swhere\s*\n", text[i:i + 12]):
            cut = i
            break
        elif depth == 0 and re.match(r"\n\s*\| ", text[i:i + 30]) and not re.search(r"\bmatch\b", text[:i]):
            cut = i
            break
        i += 1
    if cut is None:
        return None
    return (text[:cut].rstrip() + " := by sorry\n").split("\n")


def name_of(line):
    m = re.match(r"^(?:private |protected |noncomputable |@\[[^\]]*\] ?)*(theorem|lemma|example|def|instance)\s+(\S+)?", line)
    if not m:
        return line.strip()[:40]
    return "example" if m.group(1) == "example" else (m.group(2) or "instance")


def run(m):
    sync()
    edits = m.get("edits") or [m]
    for e in edits:
        p = os.path.join(DST, e["file"])
        s = open(p).read()
        if s.count(e["old"]) < 1:
            return {"id": m["id"], "error": "old text not found in " + e["file"]}
        open(p, "w").write(s.replace(e["old"], e["new"], 1))
    broken, t0 = [], time.time()
    for rnd in range(40):
        try:
            r = subprocess.run(["timeout", "1500", "lake", "build", "Verif"], cwd=DST, capture_output=True, text=True)
        except Exception as ex:
            return {"id": m["id"], "error": str(ex)}
        out = r.stdout + r.stderr
        errs = {}
        for f, l in re.findall(r"error: (Verif/\S+?\.lean):(\d+):\d+", out):
            errs.setdefault(f, set()).add(int(l) - 1)
        if r.returncode == 0:
            break
        if not errs:
            return {"id": m["id"], "error": "build failed without located errors", "out": out[-2000:], "broken": broken}
        for f, ls in errs.items():
            p = os.path.join(DST, f)
            lines = open(p).read().split("\n")
            for a, b in sorted({decl_bounds(lines, l) for l in ls}, reverse=True):
                if a < 0:
                    continue
                l = a
                nm = name_of(lines[a])
                new = sorry_out(lines, a, b)
                if new is None or "by sorry" in "\n".join(lines[a:b]):
                    if nm == "example":
                        new = ["example : True := trivial", ""]
                    else:
                        return {"id": m["id"], "error": f"cannot repair {f}:{l + 1} {nm}", "out": out[-3000:], "broken": broken}
                if nm == "example":
                    new = ["example : True := trivial", ""]
                broken.append(f"{os.path.basename(f)[:-5]}.{nm}")
                lines[a:b] = new
            open(p, "w").write("\n".join(lines))
    else:
        return {"id": m["id"], "error": "too many rounds", "broken": broken}
    chk = """import Verif
import Lean
open Lean Elab Command
run_cmd do
  let env ← getEnv
  for (n, ci) in env.constants.map₁.toList do
    if let .thmInfo _ := ci then
      let s := n.toString
      if s.startsWith "Arctic.C" && !n.isInternal then
        let ax ← liftCoreM (collectAxioms n)
        logInfo m!"{if ax.contains ``sorryAx then "FAIL" else "KEEP"} {s}"
"""
    open("/tmp/mut/chk.lean", "w").write(chk)
    r = subprocess.run(["timeout", "900", "lake", "env", "lean", "/tmp/mut/chk.lean"], cwd=DST, capture_output=True, text=True)
    fail = sorted(set(re.findall(r"FAIL (?:Arctic\.)?(C\d+_\S+)", r.stdout)))
    keep = sorted(set(re.findall(r"KEEP (?:Arctic\.)?(C\d+_\S+)", r.stdout)))
    return {"id": m["id"], "broken": broken, "failed": fail, "kept": keep, "secs": round(time.time() - t0)}


if __name__ == "__main__":
    subprocess.run("rm -rf /tmp/mut/base; cp -a /verif/lean /tmp/mut/base", shell=True, check=True)
    muts = json.load(open(sys.argv[1]))
    only = set(sys.argv[3:])
    for m in muts:
        if only and m["id"] not in only:
            continue
        res = run(m)
        with open(sys.argv[2], "a") as fh:
            fh.write(json.dumps(res, ensure_ascii=False) + "\n")
        print(m["id"], res.get("error", ""), len(res.get("broken", [])), "broken;", len(res.get("failed", [])), "failed", flush=True)
