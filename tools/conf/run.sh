#!/bin/sh
# Compares the model of float64 with the processor's, and runs the repository's own test cases for boxes, ship and mtex against the model with IEEE doubles.
d=$(cd "$(dirname "$0")" && pwd)
cp "$d/conf.lean.txt" /tmp/Conf.lean
cp "$d/ieee.lean.txt" /tmp/IeeeConf.lean
(cd "$d/../../lean" && lake env lean --run /tmp/IeeeConf.lean)
python3 "$d/gen_tables.py" /tmp/fake.txt && cd "$d/../../lean" && lake env lean --run /tmp/Conf.lean /tmp/fake.txt
