#!/bin/sh
# Run the model on the drawings of tests/MonochromeFrameBufferTest.cpp and compare with the golden images
# of the repository, tests/data/*.pbm.  A test of the model, not part of any proof.
cp /verif/tools/conform/golden.lean.txt /tmp/golden.lean
cd /verif/lean && lake env lean --run /tmp/golden.lean
