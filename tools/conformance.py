#!/usr/bin/env python3
"""Compare the model with the expectations of the project's own tests.

Reads the expected images out of the text of test_main.py (nothing of the project is executed) and runs
lean/Verif/Conformance.lean, which computes the same images with the model in double precision.

usage: tools/conformance.py [repo]
"""
import ast, json, math, os, subprocess, sys, tempfile

here = os.path.dirname(os.path.abspath(__file__))
repo = sys.argv[1] if len(sys.argv) > 1 else "/repo"
tree = ast.parse(open(os.path.join(repo, "test_arcticpy/test_main.py")).read())

parameters = {
    "test__add_cti__single_pixel__vary_express__compare_old_arctic":
        dict(rows=20, bright=2, release=-1 / math.log(0.5), power=1, tolerance=0.05),
    "test__add_cti__single_pixel__vary_express_2__compare_old_arctic":
        dict(rows=120, bright=102, release=-1 / math.log(0.5), power=0.5, tolerance=0.02),
    "test__add_cti__single_pixel__vary_express_3__compare_old_arctic":
        dict(rows=40, bright=2, release=5, power=0.5, tolerance=0.03),
}

cases = []
for node in ast.walk(tree):
    if isinstance(node, ast.FunctionDef) and node.name in parameters:
        p = parameters[node.name]
        loop = next(n for n in ast.walk(node) if isinstance(n, ast.For))
        zipped = loop.iter.args[0].args
        expresses, images = (ast.literal_eval(a) for a in zipped)
        cases.append(dict(name=node.name, cases=[
            dict(express=e, expected=[0.0] * (p["rows"] - len(im)) + im) for e, im in zip(expresses, images)], **p))

with tempfile.NamedTemporaryFile("w", suffix=".json", delete=False) as f:
    json.dump(cases, f)
try:
    sys.exit(subprocess.call(["lake", "env", "lean", "--run", "Verif/Conformance.lean", f.name],
                             cwd=os.path.join(here, "..", "lean")))
finally:
    os.unlink(f.name)
