"""Seeded-bug experiments: edit a definition of the model in a scratch copy and see which theorems fail.

Usage: seed.py experiments.json [log]
Each experiment: {"definition", "file", "old", "new", "edit", "claim"}, with "file" relative to lean/Verif.
An optional "also" lists further edits [file, old, new], for lemmas that only restate the definition.
Proofs that fail are replaced by sorry until the rest builds.  Lean then says which property theorems depend on one
of them.  One line per experiment is appended to the log, by default seeded/LOG.jsonl.
"""
import json, os, pathlib, re, shutil, subprocess, sys

root = pathlib.Path(__file__).resolve().parent.parent
scratch = pathlib.Path(os.environ.get("SEED_DIR", "/tmp/seed"))
DECL = re.compile(r"^(?:@\[.*?\]\s*)?(?:private |protected |noncomputable )*(theorem|lemma|def|example|instance|structure|abbrev|inductive)\s*([\w'.]*)")


def decls(path):
    out = []
    for n, line in enumerate(path.read_text().splitlines(), 1):
        m = DECL.match(line)
        if m:
            out.append((n, m.group(1), m.group(2)))
    return out


def enclosing(path, line):
    best = None
    for n, kind, name in decls(path):
        if n <= line:
            best = (n, kind, name)
    if best is None:
        return f"{path.name}:{line}"
    return best[2] if best[1] != "example" else f"example {path.parent.name}/{path.name}:{best[0]}"


def block_end(lines, n):
    """Number of the line after the declaration that begins in line n: declarations go on in indented lines."""
    k = n
    while k < len(lines) and (not lines[k].strip() or lines[k][0] in " \t"):
        k += 1
    return k


def proof_start(text):
    """Where the proof or the body begins: the first `:=`, `where` or `|` outside all brackets and not of a `let`."""
    depth = 0
    for i, c in enumerate(text):
        if c in "([{⟨":
            depth += 1
        elif c in ")]}⟩":
            depth -= 1
        elif depth == 0 and text.startswith(":=", i) and re.search(r"\b(let|have)\b[^;]*$", text[text.rfind("\n", 0, i) + 1:i]):
            continue
        elif depth == 0 and (text.startswith(":=", i) or re.match(r"\swhere\s|\n  \| ", text[i:])):
            return i
    return None


def assume(path, name):
    """Text of the file with the proof of the declaration replaced, and nothing else; None if that fails."""
    lines = path.read_text().splitlines()
    for n, kind, nm in decls(path):
        label = nm if kind != "example" else f"example {path.parent.name}/{path.name}:{n}"
        if label == name and kind in ("theorem", "lemma", "def", "example", "instance"):
            end = block_end(lines, n)
            text = "\n".join(lines[n - 1:end])
            i = proof_start(text)
            if i is None:
                return None
            # keep the number of lines, as examples are named by their line
            proof = text[:i].rstrip() + " := sorry"
            pad = [""] * (text.count("\n") - proof.count("\n"))
            return "\n".join(lines[:n - 1] + proof.split("\n") + pad + lines[end:]) + "\n"
    return None


LOST = """import Verif
import Lean.Util.CollectAxioms
open Lean Elab Command
run_cmd do
  for (n, c) in (← getEnv).constants.map₁.toList do
    if (n.toString.splitOn "Modred.C").length == 2 && !n.isInternal then
      if let .thmInfo _ := c then
        if (← collectAxioms n).contains ``sorryAx then logInfo m!"LOST {n}"
"""


def lost_proofs(lean):
    """Property theorems that now depend on something assumed, according to Lean; None if there is no answer."""
    f = lean / "Lost.lean"
    f.write_text(LOST)
    r = subprocess.run(["lake", "env", "lean", "Lost.lean"], cwd=lean, capture_output=True, text=True)
    if r.returncode != 0:
        print(r.stdout[-2000:], r.stderr[-2000:])
        return None
    return sorted(set(re.findall(r"LOST Modred\.(C\d\d+_[\w']+)", r.stdout)))


def main():
    lean = scratch / "lean"
    shutil.rmtree(scratch, ignore_errors=True)
    shutil.copytree(root / "lean", lean, symlinks=True)
    if subprocess.run(["lake", "build"], cwd=lean, capture_output=True).returncode != 0:
        sys.exit("the unchanged copy does not build")
    if lost_proofs(lean) != []:
        sys.exit("the check of the unchanged copy fails")
    for ex in json.loads(pathlib.Path(sys.argv[1]).read_text()):
        path = lean / "Verif" / ex["file"]
        edits = [(path, ex["old"], ex["new"])] + [(lean / "Verif" / f, o, n) for f, o, n in ex.get("also", [])]
        saved = {}
        unique = True
        for q, old, new in edits:
            saved.setdefault(q, q.read_text())
            if q.read_text().count(old) != 1:
                print("NOT UNIQUE", q.read_text().count(old), ex["definition"], "|", ex["edit"], "|", old)
                unique = False
            q.write_text(q.read_text().replace(old, new))
        failed, model, problems = [], [], []
        built = False
        while unique and not built:
            r = subprocess.run(["lake", "build"], cwd=lean, capture_output=True, text=True)
            built = r.returncode == 0
            new = []
            for m in re.finditer(r"error: (Verif/[\w/]+\.lean):(\d+):", r.stdout + r.stderr):
                q = lean / m.group(1)
                name = enclosing(q, int(m.group(2)))
                if m.group(1).startswith(("Verif/Model", "Verif/Spec")):
                    if name not in model:
                        model.append(name)
                elif name not in failed:
                    failed.append(name)
                    new.append((q, name))
            # assume what failed, to see what fails further up
            for q, name in new:
                saved.setdefault(q, q.read_text())
                text = assume(q, name)
                if text is None:
                    problems.append(name)
                else:
                    q.write_text(text)
            if model or not new:
                break
        props = lost_proofs(lean) if built else None
        for q, text in saved.items():
            q.write_text(text)
        if not unique:
            continue
        rec = {"definition": ex["definition"], "edit": ex["edit"], "claim": ex["claim"],
               "theorems_failed": failed, "property_theorems_without_proof": props,
               "theorems_tightened": ex.get("tightened", [])}
        if model or problems or props is None:
            print("MODEL ERROR" if model else "NO ANSWER", "|", ex["definition"], "|", ex["edit"], "|", model, problems, failed)
            print(r.stdout[-1500:])
            continue
        rec["outcome"] = "caught" if props else ("examples/lemmas only" if failed else "NOT CAUGHT")
        print(rec["outcome"], "|", ex["definition"], "|", ex["edit"], "|", failed, "|", props)
        sys.stdout.flush()
        with open(sys.argv[2] if len(sys.argv) > 2 else root / "seeded/LOG.jsonl", "a") as f:
            f.write(json.dumps(rec) + "\n")


main()
