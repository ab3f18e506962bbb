#!/bin/sh
# Full build; fails on errors. Run before every commit.
cd "$(dirname "$0")/../lean" && lake build 2>&1 | tee /tmp/lake.log | grep -q "Build completed successfully" || { grep error: /tmp/lake.log; exit 1; }
